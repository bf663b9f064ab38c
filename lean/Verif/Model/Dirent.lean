import Verif.Model.Csv
/-! # Model of the sizes of directory entries (libutils/unix_dir.c)

`off` and `size` stand for `offsetof(struct dirent, d_name)` and `sizeof(struct dirent)`. `size_t` has 64 bits, `int` 32. -/
namespace Dirent

/-- A `long` or an `int` converted to `size_t`. -/
def toSize (i : Int) : Nat := (i % 18446744073709551616).toNat

/-- `GetNameMax` (unix_dir.c:161-189): `pathconf` is what `fpathconf` returns where it exists, `nameMax` is `NAME_MAX` where it is defined. A system with neither does not compile. -/
def getNameMax (pathconf : Option Int) (nameMax : Option Nat) : Nat :=
  match pathconf with
  | some n =>
    if n ≠ -1 then toSize n
    else match nameMax with
      | some m => if m > 255 then m else 255
      | none => toSize (-1)
  | none => match nameMax with
    | some m => if m > 255 then m else 255
    | none => 0

/-- `GetDirentBufferSize` (unix_dir.c:194-199). -/
def bufferSize (off size nameLen : Nat) : Nat :=
  let nameEnd := (off + nameLen + 1) % 18446744073709551616
  max nameEnd size

/-- `int length = strlen(filename)` (unix_dir.c:203). -/
def asInt (n : Nat) : Int := (BitVec.ofNat 32 n).toInt

/-- `AllocateDirentForFilename` (unix_dir.c:201-210): the new block; `length + 1` is `int` arithmetic. -/
def allocate (off size : Nat) (filename : List UInt8) : Option (List (Option UInt8)) :=
  let length := asInt filename.length
  let entry := List.replicate (bufferSize off size (toSize length)) (some (0 : UInt8))
  if length = 2147483647 then none
  else CMem.memcpy entry off ((filename ++ [0]).map some) 0 (toSize (length + 1))

/-- `readdir_r` (C library) putting a name with its terminator into the buffer that `DirOpen` allocated (unix_dir.c:78-80). -/
def readdirR (entrybuf : List (Option UInt8)) (off : Nat) (name : List UInt8) : Option (List (Option UInt8)) :=
  CMem.memcpy entrybuf off ((name ++ [0]).map some) 0 (name.length + 1)

/-- The buffer of `DirOpen` (unix_dir.c:78-80). -/
def entryBuf (off size : Nat) (pathconf : Option Int) (nameMax : Option Nat) : List (Option UInt8) :=
  List.replicate (bufferSize off size (getNameMax pathconf nameMax)) (some 0)

end Dirent
