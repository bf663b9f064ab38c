import Verif.Model.Buffer
/-! # Model of the string writer in libutils/writer.c -/
namespace Writer

/-- `StringWriterImpl` (writer.c:37-42): an allocation of `allocated` bytes. -/
structure W where
  data : List (Option UInt8)
  len : Nat
  allocated : Nat

/-- `StringWriter` (writer.c:67-76): `xstrdup("")`. -/
def stringWriter : W := { data := [some 0], allocated := 1, len := 0 }

/-- `StringWriterReallocate` (writer.c:80-85). -/
def reallocate (w : W) (extra : Nat) : W :=
  let a := max (w.allocated * 2) (w.len + extra + 1)
  { w with allocated := a, data := CMem.realloc w.data a }

/-- `StringWriterWriteChar` (writer.c:87-100); the result is the writer and the returned count. -/
def writeChar (w : W) (c : UInt8) : Option (W × Nat) := do
  let w := if w.len + 2 > w.allocated then reallocate w 2 else w
  let d ← CMem.write w.data w.len (some c)
  let d ← CMem.write d (w.len + 1) (some 0)
  some ({ w with data := d, len := w.len + 1 }, 1)

/-- `StringWriterWriteLen` (writer.c:102-118). -/
def writeLen (w : W) (str : List UInt8) (len_ : Nat) : Option (W × Nat) := do
  let len ← Buffer.strnlen str len_
  let w := if w.len + len + 1 > w.allocated then reallocate w len else w
  let d ← CMem.memcpy w.data w.len (str.map some) 0 len
  let d ← CMem.write d (w.len + len) (some 0)
  some ({ w with data := d, len := w.len + len }, len)

/-- `INT_MAX`. -/
def intMax : Nat := 2147483647

/-- `WriterWrite` on a string writer (writer.c:193-196, 178-189); `str` is NUL terminated in C: the model appends the terminator. -/
def write (w : W) (str : List UInt8) : Option (W × Nat) := writeLen w (str ++ [0]) intMax

/-- `WriterWriteF`/`WriterWriteVF` on a string writer (writer.c:144-174), for a format that produces `text`. -/
def writeF (w : W) (text : List UInt8) : Option (W × Nat) := writeLen w (text ++ [0]) intMax

/-- `StringWriterLength` (writer.c:216-225). -/
def length (w : W) : Nat := w.len

/-- `StringWriterData` (writer.c:229-238), the bytes up to `len`, followed by the terminator. -/
def dataZ (w : W) : Option (List UInt8) := CMem.getRange w.data 0 (w.len + 1)

end Writer
