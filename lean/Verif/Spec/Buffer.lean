/-! # Specification: a buffer is a byte string with a mode -/
namespace BufferSpec

inductive Mode where
  | cstring
  | bytearray
deriving DecidableEq

structure B where
  mode : Mode
  content : List UInt8

/-- Client calls. `append`/`set` pass `len` bytes of which the C-string mode takes those before the first NUL; `str`, `text` are
C strings (no NUL). -/
inductive Op where
  | append (bytes : List UInt8) (len : Nat)
  | set (bytes : List UInt8) (len : Nat)
  | appendString (str : List UInt8)
  | appendChar (c : UInt8)
  | clear
  | trim (max : Nat)
  | appendF (text : List UInt8)
  | printf (text : List UInt8)
  | rewrite (keep : UInt8 → Bool) (invert : Bool)
  | toByteArray
  | toCString

/-- The bytes of a C string: up to the first NUL. -/
def cstr (bytes : List UInt8) : List UInt8 := bytes.takeWhile (· ≠ 0)

def piece (m : Mode) (bytes : List UInt8) (len : Nat) : List UInt8 :=
  match m with
  | .cstring => cstr (bytes.take len)
  | .bytearray => bytes.take len

def step (b : B) : Op → B
  | .append bytes len => { b with content := b.content ++ piece b.mode bytes len }
  | .set bytes len => { b with content := piece b.mode bytes len }
  | .appendString s => { b with content := b.content ++ s }
  | .appendChar c => { b with content := b.content ++ [c] }
  | .clear => { b with content := [] }
  | .trim max => { b with content := b.content.take max }
  | .appendF t => { b with content := b.content ++ t }
  | .printf t => { b with content := t }
  | .rewrite keep invert => { b with content := b.content.filter (fun c => keep c != invert) }
  | .toByteArray => { b with mode := .bytearray }
  | .toCString => { mode := .cstring, content := cstr b.content }

/-- What the client must respect for one call: memory handed over is readable, C strings hold no NUL; and the two calls
that misbehave on NUL bytes (see the negative theorems) are not given any. -/
def okOp (b : B) : Op → Prop
  | .append bytes len => len ≤ bytes.length ∨ (b.mode = .cstring ∧ 0 ∈ bytes)
  | .set bytes len => len ≤ bytes.length ∨ (b.mode = .cstring ∧ 0 ∈ bytes)
  | .appendString s => 0 ∉ s
  | .appendChar c => b.mode = .bytearray ∨ c ≠ 0
  | .appendF t => 0 ∉ t
  | .printf t => 0 ∉ t
  | .rewrite _ _ => 0 ∉ b.content
  | _ => True

def size : Op → Nat
  | .append bytes _ => bytes.length
  | .set bytes _ => bytes.length
  | .appendString s => s.length
  | .appendChar _ => 1
  | .appendF t => t.length
  | .printf t => t.length
  | _ => 0

def run (b : B) (ops : List Op) : B := ops.foldl step b

/-- Every call of the history respects its conditions at the point where it is made. -/
def okRun (b : B) : List Op → Prop
  | [] => True
  | op :: ops => okOp b op ∧ okRun (step b op) ops

def totalSize (ops : List Op) : Nat := (ops.map size).sum

end BufferSpec

namespace BufferSpec

/-- Lexicographic order (a proper prefix is smaller) of byte strings, with bytes ordered by `key`: -1, 0 or 1. -/
def lexCmp (key : UInt8 → Int) : List UInt8 → List UInt8 → Int
  | [], [] => 0
  | [], _ :: _ => -1
  | _ :: _, [] => 1
  | x :: xs, y :: ys => if key x < key y then -1 else if key y < key x then 1 else lexCmp key xs ys

end BufferSpec

/-! # Specification: a string writer is the text written so far -/
namespace WriterSpec

inductive Op where
  /-- `WriterWriteLen(w, str, len)` -/
  | writeLen (str : List UInt8) (len : Nat)
  /-- `WriterWrite(w, str)`, `str` a C string -/
  | write (str : List UInt8)
  /-- `WriterWriteF` whose format produces `text` -/
  | writeF (text : List UInt8)
  | writeChar (c : UInt8)

/-- The bytes one call adds. -/
def added : Op → List UInt8
  | .writeLen str len => (str.take len).takeWhile (· ≠ 0)
  | .write str => str
  | .writeF text => text
  | .writeChar c => [c]

/-- Memory handed over is readable; C strings contain no NUL and are shorter than INT_MAX. -/
def ok : Op → Prop
  | .writeLen str len => len ≤ str.length ∨ 0 ∈ str
  | .write str => 0 ∉ str ∧ str.length ≤ 2147483647
  | .writeF text => 0 ∉ text ∧ text.length ≤ 2147483647
  | .writeChar _ => True

end WriterSpec
