import Verif.Model.Mem
import Verif.Model.Flt
/-! # Model of libcompat/snprintf.c (used where the C library's `snprintf` is missing or not C99)

The format is the list of its bytes before the terminator.  `int` has 32 bits; `long`, `long long`, `size_t`, `ptrdiff_t`, `intmax_t` and pointers have 64; `char`
has 8 and is signed where the code says so; conversions to a narrower signed type wrap.  Reading a variadic argument of the wrong kind, arithmetic that leaves
`int`, reading outside a string and writing outside the block are undefined: `none`.  `len`, a `size_t`, does not wrap: it counts characters put out one by one.
`LDOUBLE` is `long double` with x86's arithmetic (`Verif.Model.Flt`); the decimal point is the dot of the "C" locale. -/
namespace Snprintf

abbrev Bytes := List UInt8

/-- A `double` or `long double`: not a number, infinite, or a sign and `m * 2^e`. -/
inductive Real where
  | nan
  | inf (neg : Bool)
  | fin (neg : Bool) (v : Flt.Num)
  deriving DecidableEq, Repr

/-- A variadic argument. -/
inductive Arg where
  /-- An `int` or `unsigned int`: its 32 bits. -/
  | w32 (v : Nat)
  /-- A `long`, `long long`, `size_t`, `ptrdiff_t`, `intmax_t` or their unsigned counterparts: its 64 bits. -/
  | w64 (v : Nat)
  /-- A `char *`: the memory from the pointer on. -/
  | str (m : Bytes)
  /-- A `void *`, `ptr 0` is NULL (also as a `char *`). -/
  | ptr (addr : Nat)
  /-- A pointer to the variable a `%n` stores to. -/
  | dst
  | dbl (r : Real)
  | ldbl (r : Real)
  deriving DecidableEq, Repr

/-- The length modifiers, `PRINT_C_…` (snprintf.c:490-497). -/
inductive Mod where
  | none | char | short | long | llong | ldouble | size | ptrdiff | intmax
  deriving DecidableEq, Repr

/-- The flags, `PRINT_F_…` (snprintf.c:478-487). -/
structure Flags where
  minus : Bool := false
  plus : Bool := false
  space : Bool := false
  num : Bool := false
  zero : Bool := false
  quote : Bool := false
  up : Bool := false
  unsigned : Bool := false
  typeG : Bool := false
  typeE : Bool := false
  deriving DecidableEq, Repr

/-- The output block and `len`. -/
structure Out where
  buf : List (Option UInt8)
  len : Nat

/-- `OUTCHAR` (snprintf.c:518-523). -/
def outchar (size : Nat) (o : Out) (ch : UInt8) : Option Out :=
  if o.len + 1 < size then (CMem.write o.buf o.len (some ch)).map fun b => ⟨b, o.len + 1⟩ else some { o with len := o.len + 1 }

/-- The padding loops (snprintf.c:961-964, 969-972, 1050-1053, 1060-1063, 1070-1073): `n` times `OUTCHAR`. -/
def outRepeat (size : Nat) (ch : UInt8) : Nat → Out → Option Out
  | 0, o => some o
  | n + 1, o => (outchar size o ch).bind (outRepeat size ch n)

/-- `printsep` (snprintf.c:1365-1378): `lc->thousands_sep`, never NULL. -/
def outAll (size : Nat) : Bytes → Out → Option Out
  | [], o => some o
  | c :: cs, o => (outchar size o c).bind (outAll size cs)

/-- An `int` result; overflow is undefined. -/
def int32 (x : Int) : Option Int := if -2147483648 ≤ x ∧ x ≤ 2147483647 then some x else none

/-! ## Strings -/

/-- The length loop of `fmtstr` (snprintf.c:952-954) from `strln`: the byte is read before the precision is looked at. The number bounds the iterations. -/
def strlnLoop (m : Bytes) (precision : Int) : Nat → (strln : Nat) → Option Nat
  | 0, _ => none
  | k + 1, strln =>
    (CMem.read m strln).bind fun c =>
      if c ≠ 0 ∧ (precision = -1 ∨ (strln : Int) < precision) then
        (int32 (strln + 1)).bind fun _ => strlnLoop m precision k (strln + 1)
      else some strln

/-- The output loop of `fmtstr` (snprintf.c:965-968) from offset `i`; `precision` counts down unless there is none. -/
def strOutLoop (size : Nat) (m : Bytes) (noprecision : Bool) : Nat → (i : Nat) → (precision : Int) → Out → Option Out
  | 0, _, _, _ => none
  | k + 1, i, precision, o =>
    (CMem.read m i).bind fun c =>
      if c ≠ 0 ∧ (noprecision = true ∨ precision > 0) then
        (outchar size o c).bind fun o => strOutLoop size m noprecision k (i + 1) (precision - 1) o
      else some o

/-- `fmtstr` (snprintf.c:941-973). -/
def fmtstr (size : Nat) (o : Out) (m : Bytes) (width precision : Int) (flags : Flags) : Option Out :=
  (strlnLoop m precision (m.length + 1) 0).bind fun strln =>
    (int32 (width - strln)).bind fun d =>
      let padlen := if d < 0 then 0 else d
      let padlen := if flags.minus then -padlen else padlen
      (outRepeat size 32 padlen.toNat o).bind fun o =>
        (strOutLoop size m (precision == -1) (m.length + 1) 0 precision o).bind fun o =>
          outRepeat size 32 (-padlen).toNat o

/-! ## Integers -/

/-- `digits[i]` (snprintf.c:1422). -/
def digit (caps : Bool) (i : Nat) : UInt8 :=
  if i < 10 then UInt8.ofNat (48 + i) else if caps then UInt8.ofNat (55 + i) else UInt8.ofNat (87 + i)

/-- `convert` (snprintf.c:1419-1432): at most `size` digits, lowest first. -/
def convert (base : Nat) (caps : Bool) : (size : Nat) → (value : Nat) → Bytes
  | 0, _ => []
  | k + 1, v => digit caps (v % base) :: if v / base ≠ 0 then convert base caps k (v / base) else []

/-- `getnumsep` (snprintf.c:1380-1396). -/
def getnumsep (sep : Bytes) (digits : Nat) : Nat := (digits - if digits % 3 = 0 then 1 else 0) / 3 * sep.length

/-- The digits loop of `fmtint` (snprintf.c:1064-1069). -/
def digitsLoop (size : Nat) (sep : Bytes) (separators : Nat) (iconvert : Bytes) : (pos : Nat) → Out → Option Out
  | 0, o => some o
  | pos + 1, o =>
    (CMem.read iconvert pos).bind fun c =>
      (outchar size o c).bind fun o =>
        if separators > 0 ∧ pos > 0 ∧ pos % 3 = 0 then
          (outAll size sep o).bind fun o => digitsLoop size sep separators iconvert pos o
        else digitsLoop size sep separators iconvert pos o

/-- The sign character of `fmtint` (snprintf.c:989-999), 0 for none. -/
def signOf (value : Int) (flags : Flags) : UInt8 :=
  if flags.unsigned then 0 else if value < 0 then 45 else if flags.plus then 43 else if flags.space then 32 else 0

/-- `uvalue` in `fmtint` (snprintf.c:989-992): `-value` overflows for the least `intmax_t`. -/
def uvalueOf (value : Int) (flags : Flags) : Option Nat :=
  if flags.unsigned then some (value % 18446744073709551616).toNat
  else if value ≥ 0 then some value.toNat
  else if value = -9223372036854775808 then none else some (-value).toNat

/-- `fmtint` (snprintf.c:975-1074). -/
def fmtint (sep : Bytes) (size : Nat) (o : Out) (value : Int) (base : Nat) (width precision : Int) (flags : Flags) : Option Out :=
  (uvalueOf value flags).bind fun uvalue =>
    let sign := signOf value flags
    let iconvert := convert base flags.up 43 uvalue
    let pos := iconvert.length
    let noprecision : Bool := precision == -1
    let precision := if flags.num && uvalue != 0 && base == 8 && decide (precision ≤ pos) then (pos : Int) + 1 else precision
    let hexprefix : UInt8 := if flags.num && uvalue != 0 && base == 16 then (if flags.up then 88 else 120) else 0
    let separators := if flags.quote then getnumsep sep pos else 0
    (int32 (precision - pos - separators)).bind fun z =>
      (int32 (width - separators - (if precision ≥ pos then precision else pos) - (if sign ≠ 0 then 1 else 0) - (if hexprefix ≠ 0 then 2 else 0))).bind fun s =>
        let zpadlen := if z < 0 then 0 else z
        let spadlen := if s < 0 then 0 else s
        let zpad2 := if flags.minus then zpadlen else if flags.zero && noprecision then zpadlen + spadlen else zpadlen
        let spad2 := if flags.minus then -spadlen else if flags.zero && noprecision then 0 else spadlen
        (int32 zpad2).bind fun zpad2 =>
          (outRepeat size 32 spad2.toNat o).bind fun o =>
            (if sign ≠ 0 then outchar size o sign else some o).bind fun o =>
              (if hexprefix ≠ 0 then (outchar size o 48).bind fun o => outchar size o hexprefix else some o).bind fun o =>
                (outRepeat size 48 zpad2.toNat o).bind fun o =>
                  (digitsLoop size sep separators iconvert pos o).bind fun o =>
                    outRepeat size 32 (-spad2).toNat o

/-! ## Floating-point numbers -/

/-- The sign character of `fmtflt` (snprintf.c:1114-1119), 0 for none: a negative zero and a NaN are not less than 0. -/
def fltSign (neg : Bool) (flags : Flags) : UInt8 := if neg then 45 else if flags.plus then 43 else if flags.space then 32 else 0

/-- Whether the value is less than 0. -/
def Real.neg : Real → Bool
  | .nan => false
  | .inf n => n
  | .fin n v => n && v.m != 0

/-- The integer part, the fractional part and the exponent (snprintf.c:1184-1221); `none` if the number is too large. -/
def fltParts (v : Flt.Num) (precision : Int) (estyle : Bool) (exponent : Int) : Option (Nat × Nat × Int) :=
  let ufvalue := if estyle then Flt.div v (Flt.mypow10 exponent) else v
  let intpart := Flt.cast ufvalue
  if intpart = Flt.uintmax then none
  else
    let mask := Flt.trunc (Flt.mypow10 precision)
    let fracpart := Flt.myround (Flt.mul (Flt.ofNat mask) (Flt.sub ufvalue (Flt.ofNat intpart)))
    if fracpart ≥ mask then
      if estyle && intpart + 1 == 10 then some (1, 0, exponent + 1) else some (intpart + 1, 0, exponent)
    else some (intpart, fracpart, exponent)

/-- What is to be printed: precision, style, exponent, integer and fractional part. -/
structure Fl where
  precision : Int
  estyle : Bool
  exponent : Int
  intpart : Nat
  fracpart : Nat

/-- At most 19 digits (snprintf.c:1170-1173). -/
def cap19 (precision : Int) : Int := if precision > 19 then 19 else precision

/-- From the label `again` to the decision on the style (snprintf.c:1159-1246); for `%g` a second time. -/
def fltDigits (v : Flt.Num) (precision : Int) (g estyle : Bool) (exponent : Int) : Option Fl :=
  let precision := cap19 precision
  (fltParts v precision estyle exponent).bind fun r =>
    if g && estyle && decide (precision + 1 > r.2.2) && decide (r.2.2 ≥ -4) then
      let precision := cap19 (precision - r.2.2)
      (fltParts v precision false r.2.2).map fun q => ⟨precision, false, q.2.2, q.1, q.2.1⟩
    else some ⟨precision, estyle, r.2.2, r.1, r.2.1⟩

/-- `econvert`, last character first (snprintf.c:1248-1271). -/
def econvert (exponent : Int) (up : Bool) : Bytes :=
  let ds := convert 10 false 2 exponent.natAbs
  let ds := if ds.length = 1 then ds ++ [48] else ds
  ds ++ [if exponent < 0 then 45 else 43] ++ [if up then 69 else 101]

/-- A list of characters in an array printed from the last to the first but `stop` (snprintf.c:1349-1356). -/
def backLoop (size : Nat) (cs : Bytes) (stop : Nat) : (pos : Nat) → Out → Option Out
  | 0, o => some o
  | pos + 1, o => if pos + 1 > stop then (CMem.read cs pos).bind fun c => (outchar size o c).bind fun o => backLoop size cs stop pos o else some o

/-- The second part of `fmtflt` (snprintf.c:1273-1362): putting it out. -/
def fltOut (sep : Bytes) (size : Nat) (o : Out) (f : Fl) (sign : UInt8) (width : Int) (flags : Flags) : Option Out :=
  let ec := if f.estyle then econvert f.exponent flags.up else []
  let ic := convert 10 false 43 f.intpart
  let fc := if f.fracpart ≠ 0 then convert 10 false 43 f.fracpart else []
  let omitzeros := flags.typeG && !flags.num
  let omitcount : Int := if omitzeros then (if fc.length > 0 then ((fc.takeWhile (· == 48)).length : Int) else f.precision) else 0
  let leadfraczeros : Int := if omitzeros && fc.length == 0 then 0 else f.precision - fc.length
  let precision := f.precision - omitcount
  let emitpoint := decide (precision > 0) || flags.num
  let separators := if flags.quote then getnumsep sep ic.length else 0
  (int32 (width - ic.length - ec.length - precision - separators - (if emitpoint then 1 else 0) - (if sign ≠ 0 then 1 else 0))).bind fun d =>
    let padlen := if d < 0 then 0 else d
    let zeros : Nat := if !flags.minus && flags.zero then padlen.toNat else 0
    let spaces : Nat := if flags.minus then 0 else if flags.zero then 0 else padlen.toNat
    let trail : Nat := if flags.minus then padlen.toNat else 0
    (if 0 < zeros ∧ sign ≠ 0 then outchar size o sign else some o).bind fun o =>
      (outRepeat size 48 zeros o).bind fun o =>
        (outRepeat size 32 spaces o).bind fun o =>
          (if zeros = 0 ∧ sign ≠ 0 then outchar size o sign else some o).bind fun o =>
            (digitsLoop size sep separators ic ic.length o).bind fun o =>
              (if emitpoint then outchar size o 46 else some o).bind fun o =>
                (outRepeat size 48 leadfraczeros.toNat o).bind fun o =>
                  (backLoop size fc omitcount.toNat fc.length o).bind fun o =>
                    (backLoop size ec 0 ec.length o).bind fun o =>
                      outRepeat size 32 trail o

/-- "nan", "NAN", "inf", "INF" (snprintf.c:1121-1124). -/
def nanText (up : Bool) : Bytes := if up then [78, 65, 78] else [110, 97, 110]
def infText (up : Bool) : Bytes := if up then [73, 78, 70] else [105, 110, 102]

/-- `fmtflt` (snprintf.c:1076-1363): the Boolean is `*overflow`. The byte behind the text of an infinity or NaN in `iconvert` is not initialised; 0 here (`fmtstr` looks at it, but at the
precision too). -/
def fmtflt (sep : Bytes) (size : Nat) (o : Out) (r : Real) (width precision : Int) (flags : Flags) : Option (Bool × Out) :=
  let precision := if precision = -1 then 6 else precision
  let sign := fltSign r.neg flags
  match r with
  | .nan =>
    let t := (if sign ≠ 0 then [sign] else []) ++ nanText flags.up
    (fmtstr size o (t ++ [0]) width t.length flags).map fun o => (false, o)
  | .inf _ =>
    let t := (if sign ≠ 0 then [sign] else []) ++ infText flags.up
    (fmtstr size o (t ++ [0]) width t.length flags).map fun o => (false, o)
  | .fin _ v =>
    let eg := flags.typeE || flags.typeG
    match fltDigits v (if flags.typeG then precision - 1 else precision) flags.typeG eg (if eg then Flt.getexponent v else 0) with
    | none => some (true, o)
    | some f => (fltOut sep size o f sign width flags).map fun o => (false, o)

/-! ## The format -/

/-- The states (snprintf.c:469-475); `modH` and `modL` are the inside of `PRINT_S_MOD` after an `h` or `l` (671-686), where the next character is looked at. -/
inductive State where
  | default | flags | width | dot | precision | mod | modH | modL | conv
  deriving DecidableEq, Repr

/-- The local variables of `rpl_vsnprintf` (snprintf.c:541-561), without `len`, which goes with the block. `stores` are the values stored through `%n`, in order. -/
structure St where
  state : State := .default
  flags : Flags := {}
  width : Int := 0
  precision : Int := -1
  cflags : Mod := .none
  overflow : Bool := false
  args : List Arg
  stores : List Int := []

/-- A conversion to a signed type of `b` bits. -/
def wrap (b : Nat) (v : Nat) : Int := if v % 2 ^ b < 2 ^ (b - 1) then ((v % 2 ^ b : Nat) : Int) else ((v % 2 ^ b : Nat) : Int) - ((2 ^ b : Nat) : Int)

/-- The value of a signed conversion (snprintf.c:711-736). -/
def signedArg : Mod → Arg → Option Int
  | .char, .w32 v => some (wrap 8 v)
  | .short, .w32 v => some (wrap 16 v)
  | .long, .w64 v | .llong, .w64 v | .size, .w64 v | .intmax, .w64 v | .ptrdiff, .w64 v => some (wrap 64 v)
  | .none, .w32 v | .ldouble, .w32 v => some (wrap 32 v)
  | _, _ => none

/-- The value of an unsigned conversion, as an `intmax_t` (snprintf.c:754-781). -/
def unsignedArg : Mod → Arg → Option Int
  | .char, .w32 v => some ((v % 2 ^ 8 : Nat) : Int)
  | .short, .w32 v => some ((v % 2 ^ 16 : Nat) : Int)
  | .long, .w64 v | .llong, .w64 v | .size, .w64 v | .intmax, .w64 v | .ptrdiff, .w64 v => some (wrap 64 v)
  | .none, .w32 v | .ldouble, .w32 v => some ((v % 2 ^ 32 : Nat) : Int)
  | _, _ => none

/-- The value `%n` stores (snprintf.c:874-914). -/
def storeOf (m : Mod) (len : Nat) : Int :=
  match m with
  | .char => wrap 8 len
  | .short => wrap 16 len
  | .none | .ldouble => wrap 32 len
  | _ => wrap 64 len

/-- `"(null)"` and `"(nil)"` with their terminators (snprintf.c:949, 858). -/
def nullText : Bytes := [40, 110, 117, 108, 108, 41, 0]
def nilText : Bytes := [40, 110, 105, 108, 41, 0]

/-- Back to the default state (snprintf.c:922-926). -/
def reset (s : St) (args : List Arg) : St :=
  { s with state := .default, flags := {}, width := 0, precision := -1, cflags := .none, args := args }

/-- `va_arg`: the next argument and the rest. -/
def vaArg (s : St) : Option (Arg × List Arg) :=
  match s.args with
  | a :: as => some (a, as)
  | [] => none

/-- An unsigned conversion (snprintf.c:740-784). -/
def convUnsigned (sep : Bytes) (size : Nat) (s : St) (o : Out) (base : Nat) (up : Bool) : Option (St × Out) :=
  (vaArg s).bind fun a =>
    (unsignedArg s.cflags a.1).bind fun v =>
      (fmtint sep size o v base s.width s.precision { s.flags with up := up, unsigned := true }).map fun o => (reset s a.2, o)

/-- The value of a floating-point conversion (snprintf.c:794-797, 808-811, 822-825): a `double`, or with `L` a `long double`. -/
def floatArg : Mod → Arg → Option Real
  | .ldouble, .ldbl r => some r
  | .ldouble, _ => none
  | _, .dbl r => some r
  | _, _ => none

/-- A floating-point conversion (snprintf.c:785-836). -/
def convFloat (sep : Bytes) (size : Nat) (s : St) (o : Out) (precision : Int) (flags : Flags) : Option (St × Out) :=
  (vaArg s).bind fun a =>
    (floatArg s.cflags a.1).bind fun r =>
      (fmtflt sep size o r s.width precision flags).map fun x => ({ reset s a.2 with overflow := x.1 }, x.2)

/-- `case PRINT_S_CONV` (snprintf.c:706-926). -/
def convCase (sep : Bytes) (size : Nat) (s : St) (o : Out) (ch : UInt8) : Option (St × Out) :=
  if ch = 100 ∨ ch = 105 then
    (vaArg s).bind fun a =>
      (signedArg s.cflags a.1).bind fun v =>
        (fmtint sep size o v 10 s.width s.precision s.flags).map fun o => (reset s a.2, o)
  else if ch = 88 then convUnsigned sep size s o 16 true
  else if ch = 120 then convUnsigned sep size s o 16 s.flags.up
  else if ch = 111 then convUnsigned sep size s o 8 s.flags.up
  else if ch = 117 then convUnsigned sep size s o 10 s.flags.up
  else if ch = 65 ∨ ch = 70 then convFloat sep size s o s.precision { s.flags with up := true }
  else if ch = 97 ∨ ch = 102 then convFloat sep size s o s.precision s.flags
  else if ch = 69 then convFloat sep size s o s.precision { s.flags with up := true, typeE := true }
  else if ch = 101 then convFloat sep size s o s.precision { s.flags with typeE := true }
  else if ch = 71 then convFloat sep size s o (if s.precision = 0 then 1 else s.precision) { s.flags with up := true, typeG := true }
  else if ch = 103 then convFloat sep size s o (if s.precision = 0 then 1 else s.precision) { s.flags with typeG := true }
  else if ch = 99 then
    (vaArg s).bind fun a =>
      match a.1 with
      | .w32 v => (outchar size o (UInt8.ofNat v)).map fun o => (reset s a.2, o)
      | _ => none
  else if ch = 115 then
    (vaArg s).bind fun a =>
      match a.1 with
      | .str m => (fmtstr size o m s.width s.precision s.flags).map fun o => (reset s a.2, o)
      | .ptr 0 => (fmtstr size o nullText s.width s.precision s.flags).map fun o => (reset s a.2, o)
      | _ => none
  else if ch = 112 then
    (vaArg s).bind fun a =>
      match a.1 with
      | .ptr 0 => (fmtstr size o nilText s.width (-1) s.flags).map fun o => (reset s a.2, o)
      | .ptr p => (fmtint sep size o (wrap 64 p) 16 s.width s.precision { s.flags with num := true, unsigned := true }).map fun o => (reset s a.2, o)
      | _ => none
  else if ch = 110 then
    (vaArg s).bind fun a =>
      match a.1 with
      | .dst => some ({ reset s a.2 with stores := s.stores ++ [storeOf s.cflags o.len] }, o)
      | _ => none
  else if ch = 37 then (outchar size o ch).map fun o => (reset s s.args, o)
  else some (reset s s.args, o)

/-- `case PRINT_S_MOD` (snprintf.c:669-705); falls to the conversion when there is no modifier. -/
def modCase (sep : Bytes) (size : Nat) (s : St) (o : Out) (ch : UInt8) : Option (St × Out) :=
  if ch = 104 then some ({ s with state := .modH }, o)
  else if ch = 108 then some ({ s with state := .modL }, o)
  else if ch = 76 then some ({ s with state := .conv, cflags := .ldouble }, o)
  else if ch = 106 then some ({ s with state := .conv, cflags := .intmax }, o)
  else if ch = 116 then some ({ s with state := .conv, cflags := .ptrdiff }, o)
  else if ch = 122 then some ({ s with state := .conv, cflags := .size }, o)
  else convCase sep size s o ch

/-- `ISDIGIT` (snprintf.c:505-507). -/
def isDigit (ch : UInt8) : Bool := decide (48 ≤ ch) && decide (ch ≤ 57)

/-- `case PRINT_S_PRECISION` (snprintf.c:645-668). -/
def precCase (sep : Bytes) (size : Nat) (s : St) (o : Out) (ch : UInt8) : Option (St × Out) :=
  let p := if s.precision = -1 then 0 else s.precision
  if isDigit ch then
    let d : Int := ch.toNat - 48
    if p > (2147483647 - d) / 10 then some ({ s with overflow := true }, o) else some ({ s with state := .precision, precision := 10 * p + d }, o)
  else if ch = 42 then
    (vaArg s).bind fun a =>
      match a.1 with
      | .w32 v => some ({ s with state := .mod, precision := if wrap 32 v < 0 then -1 else wrap 32 v, args := a.2 }, o)
      | _ => none
  else modCase sep size { s with precision := p } o ch

/-- `case PRINT_S_DOT` (snprintf.c:638-644). -/
def dotCase (sep : Bytes) (size : Nat) (s : St) (o : Out) (ch : UInt8) : Option (St × Out) :=
  if ch = 46 then some ({ s with state := .precision }, o) else modCase sep size s o ch

/-- `case PRINT_S_WIDTH` (snprintf.c:614-637). -/
def widthCase (sep : Bytes) (size : Nat) (s : St) (o : Out) (ch : UInt8) : Option (St × Out) :=
  if isDigit ch then
    let d : Int := ch.toNat - 48
    if s.width > (2147483647 - d) / 10 then some ({ s with overflow := true }, o) else some ({ s with state := .width, width := 10 * s.width + d }, o)
  else if ch = 42 then
    (vaArg s).bind fun a =>
      match a.1 with
      | .w32 v =>
        if wrap 32 v < 0 then
          (int32 (-wrap 32 v)).map fun w => ({ s with state := .dot, flags := { s.flags with minus := true }, width := w, args := a.2 }, o)
        else some ({ s with state := .dot, width := wrap 32 v, args := a.2 }, o)
      | _ => none
  else dotCase sep size s o ch

/-- `case PRINT_S_FLAGS` (snprintf.c:583-613). -/
def flagsCase (sep : Bytes) (size : Nat) (s : St) (o : Out) (ch : UInt8) : Option (St × Out) :=
  if ch = 45 then some ({ s with flags := { s.flags with minus := true } }, o)
  else if ch = 43 then some ({ s with flags := { s.flags with plus := true } }, o)
  else if ch = 32 then some ({ s with flags := { s.flags with space := true } }, o)
  else if ch = 35 then some ({ s with flags := { s.flags with num := true } }, o)
  else if ch = 48 then some ({ s with flags := { s.flags with zero := true } }, o)
  else if ch = 39 then some ({ s with flags := { s.flags with quote := true } }, o)
  else widthCase sep size s o ch

/-- The body of the loop (snprintf.c:574-927) on one character of the format: the transitions that do not consume the character are followed at once. -/
def step (sep : Bytes) (size : Nat) (s : St) (o : Out) (ch : UInt8) : Option (St × Out) :=
  match s.state with
  | .default => if ch = 37 then some ({ s with state := .flags }, o) else (outchar size o ch).map fun o => (s, o)
  | .flags => flagsCase sep size s o ch
  | .width => widthCase sep size s o ch
  | .dot => dotCase sep size s o ch
  | .precision => precCase sep size s o ch
  | .mod => modCase sep size s o ch
  | .modH => if ch = 104 then some ({ s with state := .conv, cflags := .char }, o) else convCase sep size { s with cflags := .short } o ch
  | .modL => if ch = 108 then some ({ s with state := .conv, cflags := .llong }, o) else convCase sep size { s with cflags := .long } o ch
  | .conv => convCase sep size s o ch

/-- The loop (snprintf.c:574-927). -/
def run (sep : Bytes) (size : Nat) : Bytes → St → Out → Option (St × Out)
  | [], s, o => some (s, o)
  | ch :: f, s, o => (step sep size s o ch).bind fun r => if r.1.overflow then some r else run sep size f r.1 r.2

/-- The terminator (snprintf.c:929-932). -/
def terminate (size : Nat) (o : Out) : Option (List (Option UInt8)) :=
  if o.len < size then CMem.write o.buf o.len (some 0)
  else if size > 0 then CMem.write o.buf (size - 1) (some 0)
  else some o.buf

/-- `rpl_vsnprintf` (snprintf.c:538-939): the block, the returned value, the values stored through `%n`. `str` is `none` when NULL; `sep` is the locale's
thousands separator. -/
def vsnprintf (sep : Bytes) (str : Option (List (Option UInt8))) (size : Nat) (format : Bytes) (args : List Arg) :
    Option (List (Option UInt8) × Int × List Int) :=
  let size := if str.isNone then 0 else size
  (run sep size format { args := args } ⟨str.getD [], 0⟩).bind fun r =>
    (terminate size r.2).map fun b => (b, if r.1.overflow ∨ r.2.len ≥ 2147483647 then -1 else r.2.len, r.1.stores)

/-- `rpl_vasprintf` (snprintf.c:1498-1511) with the `vsnprintf` of this file; `malloc` may fail. The inner `none`: no string was stored. -/
def vasprintf (sep : Bytes) (mallocOk : Bool) (format : Bytes) (args : List Arg) : Option (Option (List (Option UInt8)) × Int) :=
  (vsnprintf sep none 0 format args).bind fun r =>
    if r.2.1 < 0 ∨ mallocOk = false then some (none, -1)
    else
      let size := (r.2.1 + 1).toNat
      (vsnprintf sep (some (List.replicate size none)) size format args).map fun r => (some r.1, r.2.1)

end Snprintf
