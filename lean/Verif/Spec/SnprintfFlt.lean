import Verif.Spec.Snprintf
import Mathlib.Data.Rat.Floor
/-! # Specification of formatted output of floating-point numbers: the C99 rules (7.19.6.1) for e, E, f, F, g, G -/
namespace Snprintf.Spec

inductive FConv where
  | f | F | e | E | g | G
  deriving DecidableEq, Repr

def FConv.byte : FConv → UInt8
  | .f => 102 | .F => 70 | .e => 101 | .E => 69 | .g => 103 | .G => 71
/-- Whether the letters are in upper case. -/
def FConv.up : FConv → Bool
  | .F | .E | .G => true
  | _ => false

/-- A directive for a floating-point number. -/
structure FDir where
  flags : List Flag
  width : Field
  prec : Field
  mod : Mod
  conv : FConv

/-- A piece of a format: an ordinary character, `%%` or another directive; or a directive for a floating-point number. -/
inductive FPiece where
  | plain (p : Piece)
  | flt (d : FDir)

def FPiece.bytes : FPiece → Bytes
  | .plain p => p.bytes
  | .flt d => 37 :: (d.flags.map Flag.byte ++ widthBytes d.width ++ precBytes d.prec ++ modBytes d.mod ++ [d.conv.byte])

def funparse (ps : List FPiece) : Bytes := ps.flatMap FPiece.bytes

/-- A written width does not begin with 0 and is not empty; the length modifiers are none, `l` (without effect) and `L`. -/
def FPiece.wf : FPiece → Prop
  | .plain p => p.wf
  | .flt d => (∀ n, d.width = .lit n → ∃ h t, n = h :: t ∧ h ≠ 0) ∧ (d.mod = .none ∨ d.mod = .long ∨ d.mod = .ldouble)

/-- A directive with its arguments. -/
structure FItem where
  conv : FConv
  value : Real
  minus : Bool
  plus : Bool
  space : Bool
  num : Bool
  zero : Bool
  width : Nat
  prec : Option Nat

inductive Item2 where
  | plain (i : Item)
  | flt (f : FItem)

/-- The number to print: a `long double` with `L`, else a `double`. -/
def fltArg (m : Mod) : Arg → Option Real
  | .dbl r => if m = .ldouble then none else some r
  | .ldbl r => if m = .ldouble then some r else none
  | _ => none

def resolveFDir (d : FDir) (as : List Arg) : Option (FItem × List Arg) :=
  (resolveWidth d.width as).bind fun (w, left, as) =>
    (resolvePrec d.prec as).bind fun (p, as) =>
      match as with
      | a :: as =>
        (fltArg d.mod a).map fun r =>
          (⟨d.conv, r, left || d.flags.contains .minus, d.flags.contains .plus, d.flags.contains .space, d.flags.contains .num, d.flags.contains .zero, w, p⟩, as)
      | [] => none

def fresolve : List FPiece → List Arg → Option (List Item2)
  | [], _ => some []
  | .plain (.chr c) :: ps, as => (fresolve ps as).map (.plain (.chr c) :: ·)
  | .plain .percent :: ps, as => (fresolve ps as).map (.plain (.chr 37) :: ·)
  | .plain (.dir d) :: ps, as => (resolveDir d as).bind fun (i, as) => (fresolve ps as).map (.plain i :: ·)
  | .flt d :: ps, as => (resolveFDir d as).bind fun (i, as) => (fresolve ps as).map (.flt i :: ·)

/-! ## The text -/

/-- The last `p` decimal digits of a number. -/
def decimals (p n : Nat) : Bytes := (List.range p).map fun i => UInt8.ofNat (48 + n / 10 ^ (p - 1 - i) % 10)

/-- Without the zeros at the end. -/
def strip (b : Bytes) : Bytes := (b.reverse.dropWhile (· == 48)).reverse

/-- `N / 10^p` in decimal, with `p` digits after the point (without those that are 0 at the end, if asked for); without the point if nothing follows it, unless `#` is given. -/
def fixed (N p : Nat) (num stripped : Bool) : Bytes :=
  let ds := if stripped then strip (decimals p N) else decimals p N
  numeral 10 (N / 10 ^ p) ++ (if ds ≠ [] ∨ num = true then 46 :: ds else [])

/-- The same with an exponent of ten: a sign and at least two digits. -/
def scientific (N p : Nat) (E : Int) (up num stripped : Bool) : Bytes :=
  fixed N p num stripped ++ [if up then 69 else 101, if E < 0 then 45 else 43] ++ zeroPad 2 (numeral 10 E.natAbs)

/-- A sign and what follows it, in the field: with the flag `0` and without `-`, zeros between them. -/
def fltField (minus zero : Bool) (width : Nat) (sg body : Bytes) : Bytes :=
  if zero = true ∧ minus = false then sg ++ zeroPad (width - sg.length) body else inField minus width (sg ++ body)

/-- The absolute value of a finite number. -/
def mag (v : Flt.Num) : ℚ := v.m * (2 : ℚ) ^ v.e

/-- The sign, of a number less than 0, or asked for by a flag. -/
def fltSgn (negative plus space : Bool) : Bytes := if negative then [45] else if plus then [43] else if space then [32] else []

/-- `N` is `x` times 10^p, rounded to an integer: to within 10^p / 2^64 more than the half that is unavoidable; and, if `x` times 10^p is a binary number of at most 64 bits, the nearest
integer, the greater one in case of a tie. -/
def FixedOk (x : ℚ) (p N : Nat) : Prop :=
  |(N : ℚ) - x * 10 ^ p| ≤ 1 / 2 + 10 ^ p / 2 ^ 64 ∧ ((∃ (m : Nat) (e : ℤ), m < 2 ^ 64 ∧ x * 10 ^ p = m * 2 ^ e) → (N : ℤ) = ⌊x * 10 ^ p + 1 / 2⌋)

/-- `N * 10^(E - p)` is `x` with `p + 1` digits, the first of them not 0 (unless `x` is 0); the error is half a unit of the last digit plus a relative error of (|E| + 4) / 2^64. -/
def SciOk (x : ℚ) (p N : Nat) (E : Int) : Prop :=
  (x = 0 ∧ N = 0 ∧ E = 0) ∨
    (10 ^ p ≤ N ∧ N < 10 ^ (p + 1) ∧ |(N : ℚ) - x * (10 : ℚ) ^ ((p : ℤ) - E)| ≤ 1 / 2 + 10 ^ (p + 1) * (E.natAbs + 4) / 2 ^ 64)

/-- What is printed for a floating-point number. The precision is 6 when not given; with `g` and `G`, 0 counts as 1. The style of `g` is that of `f` if `P > E ≥ -4` for the precision `P` and the
exponent `E` the style of `e` would have. -/
def FItem.prints (i : FItem) (t : Bytes) : Prop :=
  match i.value with
  | .nan => t = inField i.minus i.width (fltSgn false i.plus i.space ++ if i.conv.up then [78, 65, 78] else [110, 97, 110])
  | .inf n => t = inField i.minus i.width (fltSgn n i.plus i.space ++ if i.conv.up then [73, 78, 70] else [105, 110, 102])
  | .fin n v =>
    let sg := fltSgn (n && decide (mag v ≠ 0)) i.plus i.space
    let p := i.prec.getD 6
    match i.conv with
    | .f | .F => ∃ N, FixedOk (mag v) p N ∧ t = fltField i.minus i.zero i.width sg (fixed N p i.num false)
    | .e | .E => ∃ N E, SciOk (mag v) p N E ∧ t = fltField i.minus i.zero i.width sg (scientific N p E i.conv.up i.num false)
    | .g | .G =>
      let P := if p = 0 then 1 else p
      ∃ N E, SciOk (mag v) (P - 1) N E ∧
        if E < P ∧ -4 ≤ E then ∃ N' p' : Nat, (p' : ℤ) = P - 1 - E ∧ FixedOk (mag v) p' N' ∧ t = fltField i.minus i.zero i.width sg (fixed N' p' i.num (!i.num))
        else t = fltField i.minus i.zero i.width sg (scientific N (P - 1) E i.conv.up i.num (!i.num))

/-- The numbers and precisions for which the code keeps to C99. `f`: less than 2^64 - 1 and at most 19 digits. `e`: 0, or from 10^-99 to 9 * 10^99, of at most 53 significant bits (as a `double`
has), at most 19 digits. `g`: as `e`, with a precision of at most 16, or 19 for numbers not less than 1. -/
def FItem.ok (i : FItem) : Prop :=
  ∀ n v, i.value = .fin n v →
    match i.conv with
    | .f | .F => v.m < 2 ^ 64 ∧ mag v < 2 ^ 64 - 1 ∧ i.prec.getD 6 ≤ 19
    | .e | .E => v.m < 2 ^ 53 ∧ (mag v = 0 ∨ (10 : ℚ) ^ (-99 : ℤ) ≤ mag v ∧ mag v < 9 * 10 ^ 99) ∧ i.prec.getD 6 ≤ 19
    | .g | .G => v.m < 2 ^ 53 ∧ (mag v = 0 ∨ (10 : ℚ) ^ (-99 : ℤ) ≤ mag v ∧ mag v < 9 * 10 ^ 99) ∧ (i.prec.getD 6 ≤ 16 ∨ i.prec.getD 6 ≤ 19 ∧ 1 ≤ mag v)

def Item2.ok : Item2 → Prop
  | .plain i => i.ok
  | .flt f => f.ok

/-- The text of a list of items. -/
inductive Prints : List Item2 → Bytes → Prop where
  | nil : Prints [] []
  | plain {i : Item} {is t} : Prints is t → Prints (.plain i :: is) (i.text ++ t)
  | flt {f : FItem} {is s t} : f.prints s → Prints is t → Prints (.flt f :: is) (s ++ t)

end Snprintf.Spec
