import Verif.Spec.KeyValue
/-! # Model of libutils/proc_keyvalue.c

The stream is the bytes left to read and whether they are followed by a read error. Memory is explicit: `buf` is the array of 1024 bytes
with its contents as `fgets` leaves them. -/
namespace KeyValue
open KeyValueSpec

/-- The characters `fgets` takes: at most `n`, up to and including a newline; and the rest. -/
def takeLine : Nat → Bytes → Bytes × Bytes
  | 0, s => ([], s)
  | _, [] => ([], [])
  | n + 1, c :: s => if c = 10 then ([10], s) else ((c :: (takeLine n s).1), (takeLine n s).2)

/-- `fgets(buf, size, fd)`: what is put in the buffer (before the terminator) and the rest of the stream; `none` for NULL (nothing left, or a read
error: a partial line before an error is lost). -/
def fgets (size : Nat) (s : Bytes) (err : Bool) : Option (Bytes × Bytes) :=
  match s with
  | [] => none
  | _ =>
    let r := takeLine (size - 1) s
    if r.2 = [] && err && !(r.1.getLast? == some 10) && r.1.length < size - 1 then none else some r

/-- `strchr(buf, ':')`: position of the first colon before the terminator. -/
def strchr (c : UInt8) : Bytes → Option Nat
  | [] => none
  | d :: s => if d = 0 then none else if d = c then some 0 else (strchr c s).map (· + 1)

/-- The C string at a position of the buffer. -/
def cstr (s : Bytes) : Bytes := s.takeWhile (· ≠ 0)

/-- `ParseKeyValue` (proc_keyvalue.c:60-83); the callback sees `buf` cut at the colon and what follows. The stream gets shorter with every line. -/
def parse {σ : Type} (cb : Callback σ) (err : Bool) : Nat → σ → Bytes → Option (σ × Bool)
  | 0, _, _ => none
  | fuel + 1, st, s =>
    match fgets 1024 s err with
    | none => some (st, !err)
    | some (buf, rest) =>
      match strchr 58 buf with
      | none => some (st, false)
      | some i =>
        match cb st (cstr (buf.take i)) (cstr (buf.drop (i + 1))) with
        | (st, false) => some (st, false)
        | (st, true) => parse cb err fuel st rest

/-- `ParseKeyNumericValue` with `KeyNumericParserCallback` (proc_keyvalue.c:33-57); `sscanf` is `%lli` reading. -/
def parseNumeric {σ : Type} (sscanf : Bytes → Option Int) (cb : σ → Bytes → Int → σ × Bool) (err : Bool) (fuel : Nat) (st : σ) (s : Bytes) :
    Option (σ × Bool) :=
  parse (fun st k v => match sscanf v with
    | none => (st, false)
    | some n => cb st k n) err fuel st s

end KeyValue
