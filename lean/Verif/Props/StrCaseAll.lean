import Verif.Props.Compat

/-! C78: the order `strcasecmp` gives, for all strings. -/
open Compat

namespace CaseOrder
/-- The bytes in the order of `signed char`, 0x80 first, as numbers from 0. -/
def signedRank (c : UInt8) : UInt8 := c + 128
end CaseOrder

open CaseOrder in
theorem Compat.tolower_lt (x y : UInt8) : tolower x < tolower y ↔ signedRank (Str.toLower x) < signedRank (Str.toLower y) := by
  have hs : ∀ x : UInt8, tolower x = ((signedRank (Str.toLower x)).toNat : Int) - 128 := by
    intro x
    exact Str.byte_all (P := fun x => tolower x = ((signedRank (Str.toLower x)).toNat : Int) - 128) (by decide +kernel) x
  rw [hs x, hs y, UInt8.lt_iff_toNat_lt]
  omega

open CaseOrder in
/-- C78, all strings. `strcasecmp` orders any two strings as the lexicographic order of the lower-cased strings in which the bytes from 0x80 on come before
all others (the bytes as `signed char`); where POSIX asks for the order of `unsigned char`. -/
theorem C78_strcasecmp_order_all (a b : List UInt8) :
    strcasecmp a b = -1 ↔ a.map (fun c => signedRank (Str.toLower c)) < b.map (fun c => signedRank (Str.toLower c)) := by
  induction a generalizing b with
  | nil => cases b <;> simp [strcasecmp]
  | cons x xs ih =>
    cases b with
    | nil => simp [strcasecmp]
    | cons y ys =>
      have h1 := tolower_lt x y
      have h2 := tolower_lt y x
      have h3 := tolower_eq x y
      simp only [strcasecmp, List.map_cons, List.cons_lt_cons_iff]
      by_cases hl : tolower x < tolower y
      · simp [hl, h1.mp hl]
      · have hl' : ¬ signedRank (Str.toLower x) < signedRank (Str.toLower y) := fun h => hl (h1.mpr h)
        by_cases hg : tolower y < tolower x
        · have : signedRank (Str.toLower x) ≠ signedRank (Str.toLower y) := fun h => by
            have := h2.mp hg
            rw [h] at this
            exact absurd this (by rw [UInt8.lt_iff_toNat_lt]; omega)
          simp [hl, hl', hg, this]
        · have he : tolower x = tolower y := by omega
          have := ih ys
          simp [hl, hl', hg, h3.mp he, this]

example : strcasecmp [233] [65] = -1 ∧ strcasecmp [65] [233] = 1 ∧ strcasecmp [97] [66] = -1 := by decide
