import Verif.Model.StrNum
/-! # Model of libutils/ip_address.c

The two parsers run over the bytes of the text before its NUL; `isdigit`, `isxdigit`, … are those of the C locale (false on bytes ≥ 0x80).
`none` of the loop bodies' result type `Option` is the C `return -1`; array accesses outside their bounds are the separate outcome `Oob`. -/

namespace Ip

/-- `struct IPV4Address` (ip_address.c:32-35). -/
structure V4 where
  octets : List Nat
  port : Nat
deriving DecidableEq, Repr

/-- Local variables of `IPV4_parser` (ip_address.c:126-135, 171-172). `is_digit`, `is_period`, `is_port` are recomputed for every character. -/
structure S4 where
  state : Nat := 0
  octet : Nat := 0
  port : Nat := 0
  periods : Nat := 0
  ports : Nat := 0
  chars : Nat := 0
  hasDigit : Bool := false
  change : Bool := false
  addr : V4 := ⟨[0, 0, 0, 0], 0⟩
deriving DecidableEq, Repr

/-- `Char2Dec` (ip_address.c:46-47), for a digit. -/
def char2Dec (o : Nat) (c : UInt8) : Nat := o * 10 + (c.toNat - 48)

/-- The `switch` (ip_address.c:193-268); `none` is `return -1`. -/
def switch4 (s : S4) (c : UInt8) : Option S4 :=
  if s.state = 0 ∨ s.state = 1 ∨ s.state = 2 then
    if Str.isdigit c then some { s with octet := char2Dec s.octet c, hasDigit := true }
    else if c = 46 then some { s with addr := { s.addr with octets := s.addr.octets.set s.state (s.octet % 256) }, state := s.state + 1, change := true }
    else some { s with state := 7, change := true }
  else if s.state = 3 then
    if Str.isdigit c then some { s with octet := char2Dec s.octet c, hasDigit := true }
    else if c = 58 then some { s with addr := { s.addr with octets := s.addr.octets.set s.state (s.octet % 256) }, state := 5, change := true }
    else some { s with state := 7, change := true }
  else if s.state = 4 then some s
  else if s.state = 5 then
    if Str.isdigit c then some { s with port := char2Dec s.port c }
    else some { s with state := 7, change := true }
  else none

/-- The sanity checks and the reset after the switch (ip_address.c:273-316). -/
def check4 (s : S4) : Option S4 :=
  if s.octet > 255 ∨ s.port > 65535 ∨ s.periods > 1 ∨ s.ports > 1 then none
  else if s.change then
    if s.hasDigit then some { state := s.state, addr := s.addr }
    else none
  else some s

/-- One iteration of the loop (ip_address.c:173-316). -/
def step4 (s : S4) (c : UInt8) : Option S4 := do
  let s := { s with periods := if c = 46 then s.periods + 1 else s.periods, ports := if c = 58 then s.ports + 1 else s.ports }
  let s ← switch4 s c
  check4 { s with chars := s.chars + 1 }

/-- The loop over the text. -/
def loop4 (s : S4) : List UInt8 → Option S4
  | [] => some s
  | c :: cs => do
    let s ← step4 s c
    loop4 s cs

/-- After the loop (ip_address.c:318-366). -/
def finish4 (s : S4) : Option V4 :=
  if s.state = 0 ∨ s.state = 1 ∨ s.state = 2 then none
  else if s.state = 3 then
    if s.chars = 0 then none else some { s.addr with octets := s.addr.octets.set 3 (s.octet % 256) }
  else if s.state = 5 then
    if s.chars = 0 then none else some { s.addr with port := s.port % 65536 }
  else if s.state = 6 then none
  else some s.addr

/-- `IPV4_parser` (ip_address.c:124-366). -/
def parse4 (src : List UInt8) : Option V4 := do
  let s ← loop4 {} src
  finish4 s

/-! ## IPv6 -/

/-- `struct IPV6Address` (ip_address.c:36-39). -/
structure V6 where
  sixteen : List Nat
  port : Nat
deriving DecidableEq, Repr

/-- Outcome of a C function that may access an array out of bounds. -/
inductive R (α : Type) where
  | oob
  | reject
  | ok (a : α)
deriving DecidableEq, Repr

/-- Local variables of `IPV6_parser` (ip_address.c:445-463). -/
structure S6 where
  state : Nat := 0
  sixteen : Nat := 0
  unsorted : List Nat := [0, 0, 0, 0, 0, 0]
  up : Nat := 0
  bracket : Bool := false
  port : Nat := 0
  chars : Nat := 0
  upper : Bool := false
  zero : Bool := false
  already : Bool := false
  change : Bool := false
  addr : V6 := ⟨[0, 0, 0, 0, 0, 0, 0, 0], 0⟩
deriving DecidableEq, Repr

/-- `isxdigit` in the C locale. -/
def isxdigit (c : UInt8) : Bool := Str.isdigit c || (65 ≤ c && c ≤ 70) || (97 ≤ c && c ≤ 102)
/-- `isalpha` in the C locale. -/
def isalpha (c : UInt8) : Bool := (65 ≤ c && c ≤ 90) || (97 ≤ c && c ≤ 122)

/-- `Char2Hex` (ip_address.c:55-72), for a hexadecimal digit. -/
def char2Hex (b : Nat) (c : UInt8) : Nat :=
  b * 16 + (if 97 ≤ c ∧ c ≤ 102 then c.toNat - 97 + 10 else if 65 ≤ c ∧ c ≤ 70 then c.toNat - 65 + 10 else c.toNat - 48)

/-- Error transition `state = 11; state_change = true`. -/
def S6.err (s : S6) : S6 := { s with state := 11, change := true }
/-- A hexadecimal digit in states 0-7 (ip_address.c:523-537 and its copies). -/
def S6.hexDigit (s : S6) (c : UInt8) : S6 := if s.upper then s.err else { s with sixteen := char2Hex s.sixteen c }
/-- `address->sixteen[i] = sixteen` (16 bits). -/
def S6.assign (s : S6) (i : Nat) : R S6 :=
  if i < s.addr.sixteen.length then .ok { s with addr := { s.addr with sixteen := s.addr.sixteen.set i (s.sixteen % 65536) } } else .oob
/-- `unsorted_sixteen[unsorted_pointer] = sixteen; ++unsorted_pointer`. -/
def S6.push (s : S6) : R S6 :=
  if s.up < s.unsorted.length then .ok { s with unsorted := s.unsorted.set s.up s.sixteen, up := s.up + 1 } else .oob
def R.bind {α β : Type} : R α → (α → R β) → R β
  | .oob, _ => .oob
  | .reject, _ => .reject
  | .ok a, f => f a
/-- `++state; state_change = true`. -/
def S6.next (s : S6) : S6 := { s with state := s.state + 1, change := true }

/-- Case 0 (ip_address.c:504-554). -/
def case0 (s : S6) (c : UInt8) : R S6 :=
  if c = 91 then
    if s.chars = 0 then .ok { s with bracket := true } else .ok s.err
  else if isxdigit c then .ok (s.hexDigit c)
  else if c = 58 then (s.assign 0).bind fun s => .ok s.next
  else .ok s.err

/-- Case 1 (ip_address.c:555-600). -/
def case1 (s : S6) (c : UInt8) : R S6 :=
  if isxdigit c then .ok (s.hexDigit c)
  else if c = 58 then
    if s.chars = 0 then .ok { s with zero := true, already := true }.next
    else (s.assign s.state).bind fun s => .ok s.next
  else .ok s.err

/-- Cases 2-6 (ip_address.c:601-696). -/
def case26 (s : S6) (c : UInt8) : R S6 :=
  if isxdigit c then .ok (s.hexDigit c)
  else if c = 58 then
    if s.chars = 0 then
      if s.already then .ok s.err else .ok { s with zero := true, already := true }
    else if s.zero then s.push.bind fun s => .ok s.next
    else (s.assign s.state).bind fun s => .ok s.next
  else if c = 93 then
    if s.bracket ∧ s.zero then ({ s with bracket := false } : S6).push.bind fun s => .ok { s with state := 8, change := true }
    else .ok s.err
  else .ok s.err

/-- Case 7 (ip_address.c:697-748). -/
def case7 (s : S6) (c : UInt8) : R S6 :=
  if isxdigit c then .ok (s.hexDigit c)
  else if c = 93 then
    if s.bracket then (({ s with bracket := false } : S6).assign s.state).bind fun s => .ok s.next
    else .ok s.err
  else .ok s.err

/-- The `switch` (ip_address.c:502-779). -/
def switch6 (s : S6) (c : UInt8) : R S6 :=
  if s.state = 0 then case0 s c
  else if s.state = 1 then case1 s c
  else if s.state ≤ 6 then case26 s c
  else if s.state = 7 then case7 s c
  else if s.state = 8 then if c = 58 then .ok s.next else .ok s.err
  else if s.state = 9 then if Str.isdigit c then .ok { s with port := char2Dec s.port c } else .ok s.err
  else if s.state = 10 then .ok s
  else .reject

/-- The checks and the reset after the switch (ip_address.c:780-802). -/
def check6 (s : S6) : R S6 :=
  if s.sixteen > 65535 ∨ s.port > 65535 then .reject
  else if s.change then .ok { s with sixteen := 0, port := 0, chars := 0, upper := false, change := false }
  else .ok s

/-- One iteration (ip_address.c:486-803). -/
def step6 (s : S6) (c : UInt8) : R S6 :=
  let s := { s with upper := if isxdigit c ∧ isalpha c then Str.isupper c else s.upper }
  (switch6 s c).bind fun s => check6 { s with chars := s.chars + 1 }

def loop6 (s : S6) : List UInt8 → R S6
  | [] => .ok s
  | c :: cs => (step6 s c).bind fun s => loop6 s cs

/-- `for (i = 0; i < unsorted_pointer; ++i) address->sixteen[7 - i] = unsorted_sixteen[f(i)]` (ip_address.c:855-859, 917-921). -/
def copyLoop (s : S6) (f : Nat → Nat) (i : Nat) : Nat → R S6
  | 0 => .ok s
  | k + 1 =>
    if i ≤ 7 ∧ 7 - i < s.addr.sixteen.length ∧ f i < s.unsorted.length then
      copyLoop { s with addr := { s.addr with sixteen := s.addr.sixteen.set (7 - i) ((s.unsorted.getD (f i) 0) % 65536) } } f (i + 1) k
    else .oob

/-- After the loop (ip_address.c:807-951). -/
def finish6 (s : S6) : R V6 :=
  if s.state = 0 ∨ s.state = 1 then .reject
  else if s.state ≤ 6 then
    if s.bracket then .reject
    else s.push.bind fun s =>
      if s.zero then (copyLoop s (fun i => s.up - i - 1) 0 s.up).bind fun s => .ok s.addr
      else .reject
  else if s.state = 7 then
    if s.chars = 0 then .reject
    else if s.bracket then .reject
    else (s.assign 7).bind fun s => .ok s.addr
  else if s.state = 8 then
    if s.zero then (copyLoop s (fun i => i) 0 s.up).bind fun s => .ok s.addr
    else .ok s.addr
  else if s.state = 9 then
    if s.chars = 0 then .reject
    else .ok { s.addr with port := s.port % 65536 }
  else if s.state = 11 then .reject
  else .ok s.addr

/-- `IPV6_parser` (ip_address.c:424-951). -/
def parse6 (src : List UInt8) : R V6 := (loop6 {} src).bind finish6

/-! ## Objects -/

/-- `struct IPAddress` (ip_address.c:41-44) with its pointee. -/
inductive Addr where
  | v4 (a : V4)
  | v6 (a : V6)
deriving DecidableEq, Repr

/-- `IPAddressNew` (ip_address.c:953-990) on the text in the buffer; `reject` is NULL. -/
def new (src : List UInt8) : R Addr :=
  match parse4 src with
  | some a => .ok (.v4 a)
  | none => (parse6 src).bind fun a => .ok (.v6 a)

/-- `printf` with `%x` (C library). -/
def hexText (n : Nat) : List UInt8 := (Nat.toDigits 16 n).map fun c => UInt8.ofNat c.toNat

/-- `IPAddressGetAddress` (ip_address.c:1055-1103): the text put in the buffer by `BufferPrintf`; `BIG_ENDIAN` is a non-zero macro on Linux
(endian.h), so the first branch of the `#if` is compiled. -/
def text : Addr → List UInt8
  | .v4 a => Str.natText (a.octets.getD 0 0) ++ [46] ++ Str.natText (a.octets.getD 1 0) ++ [46] ++ Str.natText (a.octets.getD 2 0) ++ [46] ++ Str.natText (a.octets.getD 3 0)
  | .v6 a => hexText (a.sixteen.getD 0 0) ++ [58] ++ hexText (a.sixteen.getD 1 0) ++ [58] ++ hexText (a.sixteen.getD 2 0) ++ [58] ++ hexText (a.sixteen.getD 3 0) ++ [58] ++
      hexText (a.sixteen.getD 4 0) ++ [58] ++ hexText (a.sixteen.getD 5 0) ++ [58] ++ hexText (a.sixteen.getD 6 0) ++ [58] ++ hexText (a.sixteen.getD 7 0)

/-- `IPAddressGetPort` (ip_address.c:1105-1127). -/
def port : Addr → Nat
  | .v4 a => a.port
  | .v6 a => a.port

/-- The loops of `IPV4Compare` and `IPV6Compare` (ip_address.c:1132-1159). -/
def eqLoop (a b : List Nat) (i : Nat) : Nat → Option Int
  | 0 => some 1
  | k + 1 => do
    let x ← a[i]?
    let y ← b[i]?
    if x ≠ y then some 0 else eqLoop a b (i + 1) k

/-- `IPAddressIsEqual` (ip_address.c:1161-1185); `none` arguments are NULL. -/
def isEqual (a b : Option Addr) : Option Int :=
  match a, b with
  | some (.v4 x), some (.v4 y) => eqLoop x.octets y.octets 0 4
  | some (.v6 x), some (.v6 y) => eqLoop x.sixteen y.sixteen 0 8
  | _, _ => some (-1)

/-- The loops of `IPV4CompareLess` and `IPV6CompareLess` (ip_address.c:1190-1227). -/
def lessLoop (a b : List Nat) (i : Nat) : Nat → Option Bool
  | 0 => some false
  | k + 1 => do
    let x ← a[i]?
    let y ← b[i]?
    if x > y then some false else if x < y then some true else lessLoop a b (i + 1) k

/-- `IPAddressCompareLess` (ip_address.c:1229-1269). -/
def less (a b : Option Addr) : Option Bool :=
  match a, b with
  | none, _ => some true
  | _, none => some true
  | some (.v4 _), some (.v6 _) => some true
  | some (.v6 _), some (.v4 _) => some false
  | some (.v4 x), some (.v4 y) => lessLoop x.octets y.octets 0 4
  | some (.v6 x), some (.v6 y) => lessLoop x.sixteen y.sixteen 0 8

end Ip
