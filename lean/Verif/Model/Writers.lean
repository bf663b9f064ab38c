import Verif.Model.Writer
/-! # Model of both kinds of writer in libutils/writer.c: who owns what, and what reaches a file -/
namespace Writers

abbrev Bytes := List UInt8

/-- A stdio stream (writer.c:49): what has been written to it, how many more bytes it takes before it fails, whether it is open.
Simplification: the bytes a stream accepts are in the file at once (stdio's own buffer is not modelled). -/
structure File where
  content : Bytes
  room : Nat
  isOpen : Bool

/-- The blocks allocated, the next block to hand out, and the streams. -/
structure World where
  live : List Nat
  next : Nat
  files : Nat → File

/-- `Writer` (writer.c:44-52): the block it lives in, and either the text of a string writer with the block holding it, or a stream.
Simplification: `xrealloc` keeps the identity of the block. -/
inductive Kind where
  | string (w : Writer.W) (block : Nat)
  | file (f : Nat)

structure Handle where
  self : Nat
  kind : Kind

/-- `malloc`, never failing (`xcalloc`, `xstrdup`: libutils/alloc.c exits when memory runs out). -/
def alloc (σ : World) : World × Nat := ({ σ with live := σ.next :: σ.live, next := σ.next + 1 }, σ.next)

/-- `free` of a block that must be live. -/
def free (σ : World) (p : Nat) : Option World :=
  if p ∈ σ.live then some { σ with live := σ.live.erase p } else none

def setFile (σ : World) (f : Nat) (x : File) : World :=
  { σ with files := fun g => if g = f then x else σ.files g }

/-- `FileWriter` (writer.c:56-63). -/
def fileWriter (σ : World) (f : Nat) : World × Handle :=
  let (σ, p) := alloc σ
  (σ, ⟨p, .file f⟩)

/-- `StringWriter` (writer.c:67-76). -/
def stringWriter (σ : World) : World × Handle :=
  let (σ, p) := alloc σ
  let (σ, d) := alloc σ
  (σ, ⟨p, .string Writer.stringWriter d⟩)

/-- C library `fwrite` of `bs` to an open stream: as much as it takes. -/
def fwrite (σ : World) (f : Nat) (bs : Bytes) : Option (World × Nat) :=
  if (σ.files f).isOpen then
    some (setFile σ f { (σ.files f) with
            content := (σ.files f).content ++ bs.take (σ.files f).room,
            room := (σ.files f).room - bs.length },
          min bs.length (σ.files f).room)
  else none

/-- A `size_t` made of the `int` -1. -/
def minusOne : Nat := 2 ^ 64 - 1

/-- `FileWriterWriteF` (writer.c:122-126), for a format producing `text`: `vfprintf` gives a negative number when the stream fails, converted to `size_t` on return. -/
def fileWriteF (σ : World) (f : Nat) (text : Bytes) : Option (World × Nat) := do
  let (σ', n) ← fwrite σ f text
  if n = text.length then some (σ', n) else some (σ', minusOne)

/-- `FileWriterWriteLen` (writer.c:130-140). -/
def fileWriteLen (σ : World) (f : Nat) (str : Bytes) (len_ : Nat) : Option (World × Nat) := do
  let len ← Buffer.strnlen str len_
  fwrite σ f (str.take len)

/-- A call on a string writer keeps everything but the text. -/
def onString (σ : World) (h : Handle) (d : Nat) (r : Option (Writer.W × Nat)) : Option (World × Handle × Nat) := do
  let (w, n) ← r
  if d ∈ σ.live then some (σ, { h with kind := .string w d }, n) else none

/-- A call on a file writer keeps the handle. -/
def onFile (h : Handle) (r : Option (World × Nat)) : Option (World × Handle × Nat) := do
  let (σ, n) ← r
  some (σ, h, n)

/-- `WriterWriteLen` (writer.c:178-189). -/
def writeLen (σ : World) (h : Handle) (str : Bytes) (len : Nat) : Option (World × Handle × Nat) :=
  if h.self ∈ σ.live then
    match h.kind with
    | .string w d => onString σ h d (Writer.writeLen w str len)
    | .file f => onFile h (fileWriteLen σ f str len)
  else none

/-- `WriterWrite` (writer.c:193-196). -/
def write (σ : World) (h : Handle) (str : Bytes) : Option (World × Handle × Nat) :=
  writeLen σ h (str ++ [0]) Writer.intMax

/-- `WriterWriteChar` (writer.c:200-212). -/
def writeChar (σ : World) (h : Handle) (c : UInt8) : Option (World × Handle × Nat) :=
  if h.self ∈ σ.live then
    match h.kind with
    | .string w d => onString σ h d (Writer.writeChar w c)
    | .file f => onFile h (fileWriteLen σ f [c, 0] 1)
  else none

/-- `WriterWriteF`/`WriterWriteVF` (writer.c:144-174), for a format producing `text`. -/
def writeF (σ : World) (h : Handle) (text : Bytes) : Option (World × Handle × Nat) :=
  if h.self ∈ σ.live then
    match h.kind with
    | .string w d => onString σ h d (Writer.writeF w text)
    | .file f => onFile h (fileWriteF σ f text)
  else none

/-- What a call made for string writers or file writers only does: `none` inside is `ProgrammingError` (exit). -/
abbrev Checked (α : Type) := Option (Option α)

/-- `StringWriterData` (writer.c:229-238), with the bytes up to and including the terminator. -/
def stringWriterData (σ : World) (h : Handle) : Checked Bytes :=
  if h.self ∈ σ.live then
    match h.kind with
    | .string w d => if d ∈ σ.live then (Writer.dataZ w).map some else none
    | .file _ => some none
  else none

/-- `StringWriterLength` (writer.c:216-225). -/
def stringWriterLength (σ : World) (h : Handle) : Checked Nat :=
  if h.self ∈ σ.live then
    match h.kind with
    | .string w _ => some (some (Writer.length w))
    | .file _ => some none
  else none

/-- `WriterClose` (writer.c:242-258). -/
def close (σ : World) (h : Handle) : Option World :=
  if h.self ∈ σ.live then
    match h.kind with
    | .string _ d => do
      let σ ← free σ d
      free σ h.self
    | .file f =>
      if (σ.files f).isOpen then free (setFile σ f { (σ.files f) with isOpen := false }) h.self
      else none
  else none

/-- `StringWriterClose` (writer.c:262-275): the block handed to the caller. -/
def stringWriterClose (σ : World) (h : Handle) : Checked (World × Nat × Writer.W) :=
  if h.self ∈ σ.live then
    match h.kind with
    | .string w d => (free σ h.self).map fun σ => some (σ, d, w)
    | .file _ => some none
  else none

/-- `FileWriterDetach` (writer.c:277-287). -/
def detach (σ : World) (h : Handle) : Checked (World × Nat) :=
  if h.self ∈ σ.live then
    match h.kind with
    | .string _ _ => some none
    | .file f => (free σ h.self).map fun σ => some (σ, f)
  else none

/-! ## The help text -/

/-- `struct option` (getopt.h), with the fields used; `name = none` ends the array. -/
structure Opt where
  name : Option Bytes
  hasArg : Bool
  val : Int

/-- `Description` (writer.h:44-49); `name = none` ends the array. -/
structure Descr where
  name : Option Bytes
  description : Bytes
  usage : Bytes

/-- The bytes of an ASCII text. -/
def str (s : String) : Bytes := s.toList.map fun c => UInt8.ofNat c.toNat

/-- `%-Ns`. -/
def padRight (n : Nat) (s : Bytes) : Bytes := s ++ List.replicate (n - s.length) 0x20

/-- `short_option` (writer.c:295-305), as `%s` sees it: `", -*"` with the star replaced by the low byte of `val`. -/
def shortOption (val : Int) : Bytes :=
  if val < 128 then (str ", -" ++ [UInt8.ofNat (val % 256).toNat, 0]).takeWhile (· ≠ 0)
  else []

/-- One turn of the loop of `WriterWriteOptions` (writer.c:306-315). -/
def optionText (name : Bytes) (o : Opt) (hint : Bytes) : Bytes :=
  if o.hasArg then
    str "  --" ++ padRight 12 name ++ shortOption o.val ++ str " value - " ++ hint ++ str "\n"
  else
    str "  --" ++ padRight 12 name ++ padRight 10 (shortOption o.val) ++ str " - " ++ hint ++ str "\n"

/-- The loop of `WriterWriteOptions` (writer.c:293-316) from index `i`; reading past the end of either array is undefined. -/
def optionsFrom (options : List Opt) (hints : List Bytes) : Nat → World → Handle → Option (World × Handle)
  | i, σ, h =>
    if hi : i < options.length then
      match options[i].name with
      | none => some (σ, h)
      | some name => do
        let hint ← hints[i]?
        let (σ, h, _) ← writeF σ h (optionText name options[i] hint)
        optionsFrom options hints (i + 1) σ h
    else none
  termination_by i => options.length - i

/-- `WriterWriteOptions` (writer.c:289-317). -/
def writeOptions (σ : World) (h : Handle) (options : List Opt) (hints : List Bytes) : Option (World × Handle) := do
  let (σ, h, _) ← writeF σ h (str "\nOptions:\n")
  optionsFrom options hints 0 σ h

/-- The loop of `WriterWriteCommands` (writer.c:323-328). -/
def commandsFrom (cs : List Descr) : Nat → World → Handle → Option (World × Handle)
  | i, σ, h =>
    if hi : i < cs.length then
      match cs[i].name with
      | none => some (σ, h)
      | some name => do
        let (σ, h, _) ← writeF σ h (str "  " ++ padRight 12 name ++ str " - " ++ cs[i].description ++ str ".\n")
        let (σ, h, _) ← writeF σ h (str "  " ++ padRight 12 [] ++ str "   Usage: " ++ cs[i].usage ++ str "\n")
        commandsFrom cs (i + 1) σ h
    else none
  termination_by i => cs.length - i

/-- `WriterWriteCommands` (writer.c:319-329). -/
def writeCommands (σ : World) (h : Handle) (cs : List Descr) : Option (World × Handle) := do
  let (σ, h, _) ← writeF σ h (str "\nCommands:\n")
  commandsFrom cs 0 σ h

/-- The commands, when `when_` says so. -/
def commandsIf (when_ : Bool) (commands : Option (List Descr)) (σ : World) (h : Handle) : Option (World × Handle) :=
  match commands with
  | none => some (σ, h)
  | some cs => if when_ then writeCommands σ h cs else some (σ, h)

/-- `WriterWriteHelp` (writer.c:331-350). -/
def writeHelp (σ : World) (h : Handle) (component : Bytes) (options : List Opt) (hints : List Bytes)
    (commands : Option (List Descr)) (commandFirst acceptsFile : Bool) : Option (World × Handle) := do
  let (σ, h, _) ← writeF σ h (str "Usage: " ++ component
    ++ (if commands.isSome && commandFirst then str " COMMAND" else [])
    ++ str " [OPTIONS]"
    ++ (if commands.isSome && !commandFirst then str " COMMAND" else [])
    ++ (if acceptsFile then str " [FILE]" else []) ++ str "\n")
  let (σ, h) ← commandsIf commandFirst commands σ h
  let (σ, h) ← writeOptions σ h options hints
  let (σ, h) ← commandsIf (!commandFirst) commands σ h
  let (σ, h, _) ← writeF σ h (str "\nWebsite: http://www.cfengine.com\n")
  let (σ, h, _) ← writeF σ h (str "This software is Copyright (C) 2008,2010-present Northern.tech AS.\n")
  some (σ, h)

end Writers
