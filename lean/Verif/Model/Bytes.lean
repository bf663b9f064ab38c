import Lean
/-! # ASCII text as bytes, written out at elaboration

`bytes! "ab"` is the term `([97, 98] : List UInt8)`; it only saves typing (and evaluating strings in the kernel). -/
open Lean in
macro "bytes! " s:str : term => do
  let xs := s.getString.toUTF8.toList.map fun b => Syntax.mkNumLit (toString b.toNat)
  `(([$(xs.toArray),*] : List UInt8))

example : bytes! "a\n\"" = [97, 10, 34] := rfl
