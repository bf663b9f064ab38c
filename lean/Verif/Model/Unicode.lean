import Mathlib.Data.List.Basic
/-! # Model of libutils/unicode.c

`int16_t` values are integers; a destination is the list of its cells, in elements; the source is the list of the cells that may be read.
Simplification: `char` is signed, as on the platforms CFEngine uses most. -/
namespace Unicode

/-- `(int16_t)src[c]` for a signed `char`. -/
def widen (c : UInt8) : Int := if c.toNat < 128 then c.toNat else (c.toNat : Int) - 256

/-- The largest `size_t` plus one. -/
def sizeMod : Nat := 2 ^ 64

/-- `size--` on `size_t`. -/
def dec (size : Nat) : Nat := if size = 0 then sizeMod - 1 else size - 1

/-- Store in an element of the destination. -/
def store {α : Type} (dst : List α) (i : Nat) (x : α) : Option (List α) := if i < dst.length then some (dst.set i x) else none

/-- The loop of `ConvertFromCharToWChar` (unicode.c:31-35): `size` after the decrement. The source is what is left of it. -/
def toWideLoop (size : Nat) : Nat → List Int → List UInt8 → Option (List Int × Nat)
  | c, dst, src =>
    if c < size then
      match src with
      | [] => none
      | x :: rest =>
        if x = 0 then some (dst, c)
        else
          match store dst c (widen x) with
          | none => none
          | some dst => toWideLoop size (c + 1) dst rest
    else some (dst, c)
  termination_by _ _ src => src.length

/-- `ConvertFromCharToWChar` (unicode.c:27-36). -/
def toWide (dst : List Int) (src : List UInt8) (size : Nat) : Option (List Int) :=
  match toWideLoop (dec size) 0 dst src with
  | none => none
  | some (dst, c) => store dst c 0

/-- The character stored and whether it stands for the value (unicode.c:45-54). -/
def narrow (x : Int) : UInt8 × Bool := if x < 0 ∨ x ≥ 0x100 then (0x5f, false) else (UInt8.ofNat x.toNat, true)

/-- The loop of `ConvertFromWCharToChar` (unicode.c:43-55). -/
def toCharLoop (size : Nat) : Nat → List UInt8 → Bool → List Int → Option (List UInt8 × Nat × Bool)
  | c, dst, clean, src =>
    if c < size then
      match src with
      | [] => none
      | x :: rest =>
        if x = 0 then some (dst, c, clean)
        else
          match store dst c (narrow x).1 with
          | none => none
          | some dst => toCharLoop size (c + 1) dst (clean && (narrow x).2) rest
    else some (dst, c, clean)
  termination_by _ _ _ src => src.length

/-- `ConvertFromWCharToChar` (unicode.c:38-58). -/
def toChar (dst : List UInt8) (src : List Int) (size : Nat) : Option (List UInt8 × Bool) :=
  match toCharLoop (dec size) 0 dst true src with
  | none => none
  | some (dst, c, clean) => (store dst c 0).map fun d => (d, clean)

end Unicode
