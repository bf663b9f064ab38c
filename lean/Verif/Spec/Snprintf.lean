import Verif.Model.Snprintf
/-! # Specification of formatted output: the C99 rules (7.19.6.1) for the integer, string and character conversions

Formats are given by their grammar: a list of ordinary characters and directives.  `unparse` writes one down as a format string; `resolve` pairs the directives with the
arguments; `Item.text` is what C99 prescribes for each. -/
namespace Snprintf.Spec

/-- A flag character. -/
inductive Flag where
  | minus | plus | space | num | zero | quote
  deriving DecidableEq, Repr

def Flag.byte : Flag → UInt8
  | .minus => 45 | .plus => 43 | .space => 32 | .num => 35 | .zero => 48 | .quote => 39

/-- A decimal numeral, highest digit first. -/
abbrev Numeral := List (Fin 10)
def Numeral.value (ds : Numeral) : Nat := ds.foldl (fun v d => 10 * v + d.val) 0
def Numeral.bytes (ds : Numeral) : Bytes := ds.map fun d => UInt8.ofNat (48 + d.val)

/-- A width or a precision: absent, written in the format, or taken from an `int` argument. -/
inductive Field where
  | absent
  | lit (n : Numeral)
  | star
  deriving DecidableEq, Repr

/-- The conversions of integers. -/
inductive IntConv where
  | d | i | u | o | x | X
  deriving DecidableEq, Repr

inductive Conv where
  | int (c : IntConv) | c | s
  deriving DecidableEq, Repr

def Conv.byte : Conv → UInt8
  | .int .d => 100 | .int .i => 105 | .int .u => 117 | .int .o => 111 | .int .x => 120 | .int .X => 88 | .c => 99 | .s => 115

def modBytes : Mod → Bytes
  | .none => [] | .char => [104, 104] | .short => [104] | .long => [108] | .llong => [108, 108]
  | .ldouble => [76] | .size => [122] | .ptrdiff => [116] | .intmax => [106]

/-- A directive. -/
structure Dir where
  flags : List Flag
  width : Field
  prec : Field
  mod : Mod
  conv : Conv

inductive Piece where
  /-- An ordinary character. -/
  | chr (c : UInt8)
  /-- `%%`. -/
  | percent
  | dir (d : Dir)

def widthBytes : Field → Bytes
  | .absent => [] | .lit n => n.bytes | .star => [42]
def precBytes : Field → Bytes
  | .absent => [] | .lit n => 46 :: n.bytes | .star => [46, 42]

def Piece.bytes : Piece → Bytes
  | .chr c => [c]
  | .percent => [37, 37]
  | .dir d => 37 :: (d.flags.map Flag.byte ++ widthBytes d.width ++ precBytes d.prec ++ modBytes d.mod ++ [d.conv.byte])

/-- The format string. -/
def unparse (ps : List Piece) : Bytes := ps.flatMap Piece.bytes

/-- An ordinary character is not `%`; a written width does not begin with 0 (that would be a flag) and is not empty (a precision may be); the length modifiers of `c` and `s`
are for wide characters, `L` for floating point, and not considered. -/
def Piece.wf : Piece → Prop
  | .chr c => c ≠ 37
  | .percent => True
  | .dir d =>
    (∀ n, d.width = .lit n → ∃ h t, n = h :: t ∧ h ≠ 0) ∧ d.mod ≠ .ldouble ∧ (d.conv = .c ∨ d.conv = .s → d.mod = .none)

/-! ## Arguments -/

/-- The number of bits of an integer argument with a length modifier, and whether it is passed as an `int`. -/
def modBits : Mod → Nat × Bool
  | .char => (8, true) | .short => (16, true) | .none | .ldouble => (32, true)
  | .long | .llong | .size | .ptrdiff | .intmax => (64, false)

/-- The bits of an argument passed with a length modifier. -/
def argBits (m : Mod) : Arg → Option Nat
  | .w32 v => if (modBits m).2 then some v else none
  | .w64 v => if (modBits m).2 then none else some v
  | _ => none

/-- The mathematical value to be printed. -/
def intValue (c : IntConv) (m : Mod) (a : Arg) : Option Int :=
  (argBits m a).map fun v =>
    match c with
    | .d | .i => (BitVec.ofNat (modBits m).1 v).toInt
    | _ => ((v % 2 ^ (modBits m).1 : Nat) : Int)

/-- A directive with its arguments: left-justified or not, the other flags, the width, the precision, the thing to print. -/
inductive Item where
  | chr (c : UInt8)
  | int (c : IntConv) (value : Int) (minus plus space num zero : Bool) (width : Nat) (prec : Option Nat)
  | str (m : Bytes) (minus : Bool) (width : Nat) (prec : Option Nat)
  | argChr (c : UInt8) (minus : Bool) (width : Nat)
  deriving DecidableEq

/-- A width: the number, whether it asks for left justification, and the remaining arguments. -/
def resolveWidth : Field → List Arg → Option (Nat × Bool × List Arg)
  | .absent, as => some (0, false, as)
  | .lit n, as => if n.value ≤ 2147483647 then some (n.value, false, as) else none
  | .star, .w32 v :: as =>
    let w := (BitVec.ofNat 32 v).toInt
    if w = -2147483648 then none else some (w.natAbs, decide (w < 0), as)
  | .star, _ => none

/-- A precision. -/
def resolvePrec : Field → List Arg → Option (Option Nat × List Arg)
  | .absent, as => some (none, as)
  | .lit n, as => if n.value ≤ 2147483647 then some (some n.value, as) else none
  | .star, .w32 v :: as =>
    let p := (BitVec.ofNat 32 v).toInt
    some (if p < 0 then none else some p.toNat, as)
  | .star, _ => none

/-- A directive takes a width, then a precision, then its own argument. A NULL string is printed as `(null)`. -/
def resolveDir (d : Dir) (as : List Arg) : Option (Item × List Arg) :=
  (resolveWidth d.width as).bind fun (w, left, as) =>
    (resolvePrec d.prec as).bind fun (p, as) =>
      let minus := left || d.flags.contains .minus
      match d.conv, as with
      | .int c, a :: as =>
        (intValue c d.mod a).map fun v =>
          (.int c v minus (d.flags.contains .plus) (d.flags.contains .space) (d.flags.contains .num) (d.flags.contains .zero) w p, as)
      | .c, .w32 v :: as => some (.argChr (UInt8.ofNat v) minus w, as)
      | .s, .str m :: as => some (.str m minus w p, as)
      | .s, .ptr 0 :: as => some (.str [40, 110, 117, 108, 108, 41, 0] minus w p, as)
      | _, _ => none

def resolve : List Piece → List Arg → Option (List Item)
  | [], _ => some []
  | .chr c :: ps, as => (resolve ps as).map (.chr c :: ·)
  | .percent :: ps, as => (resolve ps as).map (.chr 37 :: ·)
  | .dir d :: ps, as => (resolveDir d as).bind fun (i, as) => (resolve ps as).map (i :: ·)

/-! ## The text -/

/-- A number written in a base, with lower-case letters, without leading zeros. -/
def numeral (base n : Nat) : Bytes := (Nat.toDigits base n).map fun c => UInt8.ofNat c.toNat

/-- Upper case. -/
def upper (b : Bytes) : Bytes := b.map fun c => if 97 ≤ c ∧ c ≤ 122 then c - 32 else c

/-- The base of a conversion. -/
def base : IntConv → Nat
  | .d | .i | .u => 10 | .o => 8 | .x | .X => 16

/-- Zeros on the left up to `n` digits. -/
def zeroPad (n : Nat) (b : Bytes) : Bytes := List.replicate (n - b.length) 48 ++ b

/-- The digits: at least as many as the precision (which is 1 when not given), none for the value 0 with the precision 0; with `#`, an octal number begins with a 0. -/
def digits (c : IntConv) (v : Nat) (num : Bool) (prec : Option Nat) : Bytes :=
  let ds := if v = 0 then [] else numeral (base c) v
  let ds := zeroPad (prec.getD 1) (if c = .X then upper ds else ds)
  if c = .o ∧ num = true ∧ ds.head? ≠ some 48 then 48 :: ds else ds

/-- The sign, only for the signed conversions. -/
def sign (c : IntConv) (v : Int) (plus space : Bool) : Bytes :=
  if c = .d ∨ c = .i then (if v < 0 then [45] else if plus then [43] else if space then [32] else []) else []

/-- The prefix of a hexadecimal number that is not 0, with `#`. -/
def hexPrefix (c : IntConv) (v : Int) (num : Bool) : Bytes :=
  if num = true ∧ v ≠ 0 then (match c with | .x => [48, 120] | .X => [48, 88] | _ => []) else []

/-- A text in a field: spaces on the left, or on the right. -/
def inField (minus : Bool) (width : Nat) (t : Bytes) : Bytes :=
  if minus then t ++ List.replicate (width - t.length) 32 else List.replicate (width - t.length) 32 ++ t

/-- What is printed. The flag `0` counts when there is neither `-` nor a precision: zeros go between the prefix and the digits. -/
def Item.text : Item → Bytes
  | .chr c => [c]
  | .argChr c minus w => inField minus w [c]
  | .str m minus w p =>
    inField minus w ((match p with | some n => m.take n | none => m).takeWhile (· ≠ 0))
  | .int c v minus plus space num zero w p =>
    let pre := sign c v plus space ++ hexPrefix c v num
    let ds := digits c v.natAbs num p
    if zero = true ∧ minus = false ∧ p = none then pre ++ zeroPad (w - pre.length) ds else inField minus w (pre ++ ds)

/-- The whole text. -/
def text (is : List Item) : Bytes := is.flatMap Item.text

/-- The cases in which the code keeps to C99. Left out: the least `intmax_t`; the value 0 with the precision 0 (unless `#o`); a hexadecimal number with the prefix, no width and a precision that is
the greatest `int`; `%c` with a width; a string whose terminator is missing just where the precision ends; strings of 2^31 bytes. -/
def Item.ok : Item → Prop
  | .chr _ => True
  | .argChr _ _ w => w = 0
  | .str m _ _ p =>
    (∃ n, n ≤ 2147483647 ∧ m[n]? = some 0) ∨ (∃ n, p = some n ∧ n < m.length)
  | .int c v _ _ _ num _ w p =>
    v ≠ -9223372036854775808 ∧ (p = some 0 → v = 0 → c = .o ∧ num = true) ∧ (num = true → c = .x ∨ c = .X → p = some 2147483647 → 0 < w)

/-- The block after the call: as much of the text as fits before the terminator; the cells after the terminator are untouched. -/
def filled (blk : List (Option UInt8)) (size : Nat) (t : Bytes) : List (Option UInt8) :=
  if size = 0 then blk else (t.take (size - 1)).map some ++ some 0 :: blk.drop ((t.take (size - 1)).length + 1)

/-- The number of arguments a directive takes. -/
def Piece.args : Piece → Nat
  | .dir d => (if d.width = .star then 1 else 0) + (if d.prec = .star then 1 else 0) + 1
  | _ => 0

/-- The decimal digits of a number with the locale's separator between the groups of three. -/
def grouped (sep : Bytes) : Bytes → Bytes
  | [] => []
  | c :: cs => c :: ((if cs ≠ [] ∧ cs.length % 3 = 0 then sep else []) ++ grouped sep cs)

end Snprintf.Spec
