import Verif.Model.Ip
/-! # Model of the replacements for inet_pton and inet_ntop (libcompat/inet_pton.c, libcompat/inet_ntop.c)

A C string is the list of its bytes before the terminator.  An outer `none` is undefined behaviour: an access out of bounds, a read of an uninitialised cell, a
failed assertion. -/
namespace Inet
abbrev Bytes := List UInt8

/-! ## inet_pton -/

/-- The loop of `inet_pton4` (inet_pton.c:91-116) over the rest of the string, with `tmp`, the index `tp`, `saw_digit`, `octets`; then inet_pton.c:117-120.
`some none` is `return (0)`; the bytes copied to `dst` otherwise. -/
def pton4Loop : Bytes → (tmp : List (Option UInt8)) → (tp : Nat) → (saw : Bool) → (octets : Nat) → Option (Option Bytes)
  | [], tmp, _, _, octets =>
    if octets < 4 then some none else (CMem.getRange tmp 0 4).map some
  | c :: rest, tmp, tp, saw, octets =>
    if 48 ≤ c ∧ c ≤ 57 then do
      let old ← CMem.get tmp tp
      let new := old.toNat * 10 + (c.toNat - 48)
      if new > 255 then some none
      else do
        let tmp ← CMem.write tmp tp (some (UInt8.ofNat new))
        if !saw then
          if octets + 1 > 4 then some none else pton4Loop rest tmp tp true (octets + 1)
        else pton4Loop rest tmp tp saw octets
    else if c = 46 ∧ saw = true then
      if octets = 4 then some none
      else do
        let tmp ← CMem.write tmp (tp + 1) (some 0)
        pton4Loop rest tmp (tp + 1) false octets
    else some none

/-- `inet_pton4` (inet_pton.c:80-121); the first cell is set before the loop (90). -/
def pton4 (s : Bytes) : Option (Option Bytes) := pton4Loop s [some 0, none, none, none] 0 false 0

/-- The two calls of `strchr` on the tables of hexadecimal digits (inet_pton.c:158-159, 162): the digit's value. -/
def hexVal (c : UInt8) : Option Nat :=
  if 48 ≤ c ∧ c ≤ 57 then some (c.toNat - 48)
  else if 97 ≤ c ∧ c ≤ 102 then some (c.toNat - 87)
  else if 65 ≤ c ∧ c ≤ 70 then some (c.toNat - 55)
  else none

/-- The local variables of `inet_pton6` (inet_pton.c:138-145): `tmp`, `tp` and `colonp` as indices, `curtok` as the string from there on. -/
structure S6 where
  tmp : Bytes := List.replicate 16 0
  tp : Nat := 0
  colonp : Option Nat := none
  curtok : Bytes
  saw : Bool := false
  val : Nat := 0

/-- `*tp++ = (unsigned char) (val >> 8) & 0xff; *tp++ = (unsigned char) val & 0xff;` (inet_pton.c:179-180, 194-195). -/
def store (s : S6) : Option S6 := do
  let tmp ← CMem.write s.tmp s.tp (UInt8.ofNat (s.val >>> 8))
  let tmp ← CMem.write tmp (s.tp + 1) (UInt8.ofNat s.val)
  some { s with tmp, tp := s.tp + 2 }

/-- `memcpy(dst, tmp, NS_INADDRSZ)` of `inet_pton4` into `tp` (inet_pton.c:119, 186). -/
def put4 (tmp : Bytes) (tp : Nat) (q : Bytes) : Option Bytes := CMem.memcpy tmp tp q 0 4

/-- The loop of `inet_pton6` (inet_pton.c:154-190): `some none` is `return (0)`, otherwise the variables after the loop. -/
def pton6Loop : Bytes → S6 → Option (Option S6)
  | [], s => some (some s)
  | c :: rest, s =>
    match hexVal c with
    | some d => if s.val * 16 + d > 65535 then some none else pton6Loop rest { s with val := s.val * 16 + d, saw := true }
    | none =>
      if c = 58 then
        if !s.saw then
          if s.colonp.isSome then some none else pton6Loop rest { s with curtok := rest, colonp := some s.tp }
        else if s.tp + 2 > 16 then some none
        else (store { s with curtok := rest }).bind fun s => pton6Loop rest { s with saw := false, val := 0 }
      else if c = 46 ∧ s.tp + 4 ≤ 16 then
        (pton4 s.curtok).bind fun q =>
          match q with
          | none => some none
          | some q => (put4 s.tmp s.tp q).map fun tmp => some { s with tmp, tp := s.tp + 4, saw := false }
      else some none

/-- `for (i = 1; i <= n; i++) { endp[- i] = colonp[n - i]; colonp[n - i] = 0; }` (inet_pton.c:205-208) from `i` on, `k` to go. -/
def shift (cp n : Nat) : (k : Nat) → (i : Nat) → Bytes → Option Bytes
  | 0, _, tmp => some tmp
  | k + 1, i, tmp => do
    let x ← CMem.read tmp (cp + n - i)
    let tmp ← CMem.write tmp (16 - i) x
    let tmp ← CMem.write tmp (cp + n - i) 0
    shift cp n k (i + 1) tmp

/-- inet_pton.c:191-214 after the loop. -/
def pton6End (s : S6) : Option (Option Bytes) :=
  if s.saw && s.tp + 2 > 16 then some none
  else do
    let s ← if s.saw then store s else some s
    match s.colonp with
    | some cp => (shift cp (s.tp - cp) (s.tp - cp) 1 s.tmp).map some
    | none => if s.tp ≠ 16 then some none else some (some s.tmp)

/-- `inet_pton6` (inet_pton.c:132-216; compiled only where the macro INET6 is defined, which nothing in the repository does). -/
def pton6 (s : Bytes) : Option (Option Bytes) :=
  let go (src : Bytes) : Option (Option Bytes) := (pton6Loop src { curtok := src }).bind fun r =>
    match r with
    | none => some none
    | some s => pton6End s
  match s with
  | 58 :: rest => if rest.head? = some 58 then go rest else some none
  | s => go s

/-- The address family argument: AF_INET, AF_INET6, anything else. -/
inductive Af where
  | inet | inet6 | other
  deriving DecidableEq

/-- `inet_pton` (inet_pton.c:51-67): the return value and the bytes stored in `dst`; `inet6` tells whether the macro INET6 is defined. -/
def pton (inet6 : Bool) (af : Af) (src : Bytes) : Option (Int × Option Bytes) :=
  let code (r : Option (Option Bytes)) : Option (Int × Option Bytes) := r.map fun r => (if r.isSome then 1 else 0, r)
  match af with
  | .inet => code (pton4 src)
  | .inet6 => if inet6 then code (pton6 src) else some (-1, none)
  | .other => some (-1, none)

/-! ## inet_ntop -/

/-- `snprintf(tmp, sizeof tmp, "%u.%u.%u.%u", …)` (inet_ntop.c:83): at most 15 characters, so nothing is cut. -/
def quadText (src : Bytes) : Option Bytes := do
  let a ← src[0]?
  let b ← src[1]?
  let c ← src[2]?
  let d ← src[3]?
  some (Str.natText a.toNat ++ [46] ++ Str.natText b.toNat ++ [46] ++ Str.natText c.toNat ++ [46] ++ Str.natText d.toNat)

/-- `inet_ntop4` (inet_ntop.c:77-92): `some none` is NULL with ENOSPC, otherwise the memory at `dst` afterwards. `snprintf`'s result is the full length. -/
def ntop4 (src : Bytes) (dst : List (Option UInt8)) (size : Nat) : Option (Option (List (Option UInt8))) := do
  let t ← quadText src
  if t.length ≥ 16 then none
  else if t.length ≥ size then some none
  else (CMem.memcpy dst 0 ((t ++ [0]).map some) 0 (t.length + 1)).map some

/-- `words[i / 2] |= (src[i] << ((1 - (i % 2)) << 3))` (inet_ntop.c:119-121). -/
def words : Bytes → Option (List Nat)
  | [] => some []
  | a :: b :: rest => (words rest).map ((a.toNat <<< 8 ||| b.toNat) :: ·)
  | [_] => none

/-- A run: `base`, `len`; `none` is base -1. -/
abbrev Run := Option (Nat × Nat)

/-- `if (best.base == -1 || cur.len > best.len) best = cur;` (inet_ntop.c:132-133, 139-140). -/
def better (best : Run) (cur : Nat × Nat) : Run :=
  match best with
  | none => some cur
  | some b => if cur.2 > b.2 then some cur else some b

/-- The loop over the words and the statement after it (inet_ntop.c:124-141), from word `i` on. -/
def scan : List Nat → Nat → (best cur : Run) → Run
  | [], _, best, cur => match cur with
    | some c => better best c
    | none => best
  | w :: ws, i, best, cur =>
    if w = 0 then
      match cur with
      | none => scan ws (i + 1) best (some (i, 1))
      | some c => scan ws (i + 1) best (some (c.1, c.2 + 1))
    else
      match cur with
      | some c => scan ws (i + 1) (better best c) none
      | none => scan ws (i + 1) best none

/-- inet_ntop.c:122-143: the run to abbreviate. -/
def bestRun (ws : List Nat) : Run :=
  match scan ws 0 none none with
  | some r => if r.2 < 2 then none else some r
  | none => none

/-- Appending to `tmp` of 46 bytes, with `extra` further bytes written after `s` (a terminator). -/
def app (acc s : Bytes) (extra : Nat) : Option Bytes := if acc.length + s.length + extra ≤ 46 then some (acc ++ s) else none

/-- Is the address an encapsulated IPv4 (inet_ntop.c:160-161)? -/
def embedded (ws : List Nat) (best : Run) : Option Bool :=
  match best with
  | some (0, l) => if l = 6 then some true else if l = 5 then ws[5]?.map (· == 65535) else some false
  | _ => some false

/-- The loop that formats the words (inet_ntop.c:149-171) from word `i` on, `k` to go; `some none` is `return (NULL)`. -/
def format (src : Bytes) (ws : List Nat) (best : Run) : (k : Nat) → (i : Nat) → (acc : Bytes) → Option (Option Bytes)
  | 0, _, acc => some (some acc)
  | k + 1, i, acc =>
    if best.any fun b => b.1 ≤ i && i < b.1 + b.2 then
      if best.any fun b => i == b.1 then (app acc [58] 0).bind fun acc => format src ws best k (i + 1) acc
      else format src ws best k (i + 1) acc
    else
      (if i ≠ 0 then app acc [58] 0 else some acc).bind fun acc =>
        (if i = 6 then embedded ws best else some false).bind fun e =>
          if e then
            (quadText (src.drop 12)).bind fun t =>
              if t.length ≥ 46 - acc.length then some none else some (some (acc ++ t))
          else
            ws[i]?.bind fun w =>
              let t := Ip.hexText w
              if t.length ≥ 5 then none else (app acc t 1).bind fun acc => format src ws best k (i + 1) acc

/-- inet_ntop.c:172-186: a trailing run, the terminator, the size check, the copy. -/
def ntop6End (best : Run) (acc : Bytes) (dst : List (Option UInt8)) (size : Nat) : Option (Option (List (Option UInt8))) :=
  (if best.any fun b => b.1 + b.2 == 8 then app acc [58] 0 else some acc).bind fun acc =>
    (app acc [0] 0).bind fun acc =>
      if acc.length > size then some none else (CMem.memcpy dst 0 (acc.map some) 0 acc.length).map some

/-- `inet_ntop6` (inet_ntop.c:101-189) on the sixteen bytes at `src`. -/
def ntop6 (src : Bytes) (dst : List (Option UInt8)) (size : Nat) : Option (Option (List (Option UInt8))) :=
  (words (src.take 16)).bind fun ws =>
    (format src ws (bestRun ws) 8 0 []).bind fun r =>
      match r with
      | none => some none
      | some acc => ntop6End (bestRun ws) acc dst size

/-- `inet_ntop` (inet_ntop.c:49-64). -/
def ntop (af : Af) (src : Bytes) (dst : List (Option UInt8)) (size : Nat) : Option (Option (List (Option UInt8))) :=
  match af with
  | .inet => ntop4 src dst size
  | .inet6 => ntop6 src dst size
  | .other => some none

end Inet
