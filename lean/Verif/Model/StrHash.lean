import Verif.Model.Csv
import Verif.Model.Map
/-! # Model of StringHash (string_lib.c:89-117), the hash function of string maps and sets -/
namespace StrHash

/-- One turn of the loop (string_lib.c:100-102); the byte is read as `unsigned char`. -/
def turn (h : BitVec 32) (c : UInt8) : BitVec 32 :=
  let h := h + BitVec.ofNat 32 c.toNat
  let h := h + (h <<< 10)
  h ^^^ (h >>> 6)

/-- After the loop (string_lib.c:105-107). -/
def final (h : BitVec 32) : BitVec 32 :=
  let h := h + (h <<< 3)
  let h := h ^^^ (h >>> 11)
  h + (h <<< 15)

/-- `StringHash` (string_lib.c:89-110): `strlen`, the loop, the end; undefined if the block has no terminator. -/
def stringHash (blk : List (Option UInt8)) (seed : BitVec 32) : Option (BitVec 32) := (CMem.str blk).map fun s => final (s.foldl turn seed)

end StrHash
