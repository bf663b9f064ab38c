import Mathlib.Data.List.Basic
/-! # Specification: conversion element by element, as much as fits, terminated -/
namespace UnicodeSpec

/-- What a destination of `size` elements holds after `text` has been put there: as much of the text as fits, a terminator, and what was there after that. -/
def put {α : Type} (zero : α) (dst text : List α) (size : Nat) : List α :=
  text.take (size - 1) ++ zero :: dst.drop ((text.take (size - 1)).length + 1)

/-- A signed byte as an integer. -/
def signed (c : UInt8) : Int := if c.toNat < 128 then c.toNat else (c.toNat : Int) - 256

/-- A code unit as a byte, underscore if it has none. -/
def latin1 (x : Int) : UInt8 := if 0 ≤ x ∧ x < 256 then UInt8.ofNat x.toNat else 0x5f

end UnicodeSpec
