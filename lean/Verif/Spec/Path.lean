import Verif.Spec.Strings
/-! # Specification of path and string joining -/
namespace PathSpec

/-- `dir`, exactly one separator between, and `leaf`; a single separator already at the end of `dir` is the one used. -/
def joined (dir : List UInt8) (sep : UInt8) (leaf : List UInt8) : List UInt8 :=
  (if dir.getLast? = some sep then dir.dropLast else dir) ++ [sep] ++ leaf

/-- `t` and `s` with a separator between them unless `t` is empty. -/
def delimited (t : List UInt8) (sep : UInt8) (s : List UInt8) : List UInt8 := if t = [] then s else t ++ [sep] ++ s

end PathSpec

namespace HashSpec

/-- The text in front of a printed digest: "MD5=" or "SHA=" when a prefix is asked for. -/
def pre (md5 usePrefix : Bool) : List UInt8 := if usePrefix then (if md5 then [77, 68, 53, 61] else [83, 72, 65, 61]) else []

/-- "#MD5=" -/
def mark : List UInt8 := [35, 77, 68, 53, 61]

end HashSpec
