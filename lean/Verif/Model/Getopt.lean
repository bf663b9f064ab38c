import Verif.Model.Mem
/-! # Model of libcompat/getopt.c and getopt1.c: `getopt`, `getopt_long`, `getopt_long_only`

A C string is the list of its bytes before the terminator (no byte is 0).  `argv` is the list of its `argc` elements; an access beyond it is undefined (`none`).
The static variables are the fields of `St`; `nextchar` is the text it points to.  Messages on stderr are not modelled.  `char` is signed. -/
namespace Getopt

abbrev Str := List UInt8

/-- A byte as a (signed) `char` converted to `int`. -/
def charInt (c : UInt8) : Int := if c < 128 then (c.toNat : Int) else (c.toNat : Int) - 256

/-- `struct option` (libcompat/getopt.h:82-96); `flag` says whether the pointer is non-NULL. -/
structure LongOpt where
  name : Str
  hasArg : Nat
  flag : Bool
  val : Int
  deriving DecidableEq, Repr

/-- `ordering` (libcompat/getopt.c:153-156). -/
inductive Ordering where
  | require | permute | inOrder
  deriving DecidableEq, Repr

/-- What one call returns and stores: the returned value, `optarg`, and `optopt`, `*longind` and `*flag` if it stores there. -/
structure Call where
  ret : Int
  optarg : Option Str := none
  optopt : Option Int := none
  longind : Option Nat := none
  flagSet : Option Int := none
  deriving DecidableEq, Repr

/-- The caller's vector and the static variables. -/
structure St where
  argv : List Str
  optind : Nat := 0
  next : Option Str := none
  first : Nat := 0
  last : Nat := 0
  ord : Ordering := .require
  deriving DecidableEq, Repr

/-- The swapping loops of `exchange` (libcompat/getopt.c:207-212, 223-228). -/
def swapSeg (argv : List Str) (i j : Nat) : Nat → Option (List Str)
  | 0 => some argv
  | n + 1 => do
    let tem ← argv[i]?
    let b ← argv[j]?
    swapSeg ((argv.set i b).set j tem) (i + 1) (j + 1) n

/-- The outer loop of `exchange` (libcompat/getopt.c:198-232). -/
def exLoop (argv : List Str) (bottom middle top : Nat) : Option (List Str) :=
  if top > middle ∧ middle > bottom then
    if top - middle > middle - bottom then
      (swapSeg argv bottom (top - (middle - bottom)) (middle - bottom)).bind fun a => exLoop a bottom middle (top - (middle - bottom))
    else
      (swapSeg argv bottom middle (top - middle)).bind fun a => exLoop a (bottom + (top - middle)) middle top
  else some argv
termination_by top - bottom
decreasing_by all_goals omega

/-- `exchange` (libcompat/getopt.c:183-238). -/
def exchange (s : St) : Option St :=
  (exLoop s.argv s.first s.last s.optind).bind fun a => some { s with argv := a, first := s.first + (s.optind - s.last), last := s.optind }

/-- `_getopt_initialize` (libcompat/getopt.c:242-273): the state and the option string to use in this call. `posix` says whether POSIXLY_CORRECT is set. -/
def initState (posix : Bool) (s : St) (o : Str) : St × Str :=
  let s := { s with first := 1, last := 1, optind := 1, next := none }
  if o.head? = some 45 then ({ s with ord := .inOrder }, o.drop 1)
  else if o.head? = some 43 then ({ s with ord := .require }, o.drop 1)
  else if posix then ({ s with ord := .require }, o)
  else ({ s with ord := .permute }, o)

/-- The test for a non-option (libcompat/getopt.c:363, 398). -/
def nonopt (a : Str) : Bool := a.head? ≠ some 45 || (a.drop 1).isEmpty

/-- The loop that skips non-options (libcompat/getopt.c:362-364). -/
def skip (argv : List Str) (i : Nat) : Option Nat :=
  if h : i < argv.length then if nonopt argv[i] then skip argv (i + 1) else some i
  else some i
termination_by argv.length - i

/-- `strchr(optstring, c)` for a character that is not the terminator: the text from the found character on. -/
def index : Str → UInt8 → Option Str
  | [], _ => none
  | x :: o, c => if x = c then some (x :: o) else index o c

/-- What the first half of `_getopt_internal` does: return, or go on with `nextchar`. -/
inductive Adv where
  | ret (s : St) (c : Call)
  | go (s : St)
  deriving DecidableEq, Repr

/-- Permuting before the next element (libcompat/getopt.c:350-366). -/
def permute (s : St) : Option St :=
  if s.ord = .permute then
    (if s.first ≠ s.last ∧ s.last ≠ s.optind then exchange s
     else if s.last ≠ s.optind then some { s with first := s.optind }
     else some s).bind fun s =>
    (skip s.argv s.optind).bind fun i => some { s with optind := i, last := i }
  else some s

/-- The special element "--" (libcompat/getopt.c:373-384). -/
def dashes (s : St) : Option St :=
  if s.optind ≠ s.argv.length then
    s.argv[s.optind]?.bind fun a =>
      if a = [45, 45] then
        let s := { s with optind := s.optind + 1 }
        (if s.first ≠ s.last ∧ s.last ≠ s.optind then exchange s
         else if s.first = s.last then some { s with first := s.optind }
         else some s).bind fun s => some { s with last := s.argv.length, optind := s.argv.length }
      else some s
  else some s

/-- Advancing to the next element (libcompat/getopt.c:346-411). -/
def advance (long : Bool) (s : St) : Option Adv :=
  (permute s).bind fun s =>
  (dashes s).bind fun s =>
  if s.optind = s.argv.length then
    some (.ret (if s.first ≠ s.last then { s with optind := s.first } else s) ⟨-1, none, none, none, none⟩)
  else s.argv[s.optind]?.bind fun a =>
    if nonopt a then
      if s.ord = .require then some (.ret s ⟨-1, none, none, none, none⟩)
      else some (.ret { s with optind := s.optind + 1 } ⟨1, some a, none, none, none⟩)
    else some (.go { s with next := some (a.drop (1 + if long && (a.drop 1).head? = some 45 then 1 else 0)) })

/-- The loop over the long options (libcompat/getopt.c:443-465); `nm` is the text from `nextchar` to `nameend`. The last component is `exact`. -/
def findLong (nm : Str) : List LongOpt → Nat → Option (Nat × LongOpt) → Bool → Option (Nat × LongOpt) × Bool × Bool
  | [], _, found, ambig => (found, ambig, false)
  | p :: ps, i, found, ambig =>
    if p.name.take nm.length = nm then
      if nm.length = p.name.length then (some (i, p), ambig, true)
      else match found with
        | none => findLong nm ps (i + 1) (some (i, p)) ambig
        | some f => findLong nm ps (i + 1) (some f) true
    else findLong nm ps (i + 1) found ambig

/-- A long option was found (libcompat/getopt.c:477-528); `rest` is the text from `nameend` on. -/
def longFound (o : Str) (s : St) (rest : Str) (f : Nat × LongOpt) : Option (St × Call) :=
  let s := { s with optind := s.optind + 1 }
  let done (s : St) (optarg : Option Str) : Option (St × Call) :=
    let s := { s with next := some [] }
    if f.2.flag then some (s, ⟨0, optarg, none, some f.1, some f.2.val⟩) else some (s, ⟨f.2.val, optarg, none, some f.1, none⟩)
  match rest with
  | _ :: v => if f.2.hasArg ≠ 0 then done s (some v) else some ({ s with next := some [] }, ⟨63, none, none, none, none⟩)
  | [] =>
    if f.2.hasArg = 1 then
      if s.optind < s.argv.length then s.argv[s.optind]?.bind fun a => done { s with optind := s.optind + 1 } (some a)
      else some ({ s with next := some [] }, ⟨if o.head? = some 58 then 58 else 63, none, none, none, none⟩)
    else done s none

/-- The next short option character (libcompat/getopt.c:558-622). -/
def short (o : Str) (s : St) (nx : Str) : Option (St × Call) :=
  match nx with
  | [] => none
  | c :: nx =>
    let s := { s with next := some nx, optind := if nx = [] then s.optind + 1 else s.optind }
    match index o c with
    | none => some (s, ⟨63, none, some (charInt c), none, none⟩)
    | some temp =>
      if c = 58 then some (s, ⟨63, none, some (charInt c), none, none⟩)
      else if (temp.drop 1).head? = some 58 then
        if (temp.drop 2).head? = some 58 then
          if nx ≠ [] then some ({ s with optind := s.optind + 1, next := none }, ⟨charInt c, some nx, none, none, none⟩)
          else some ({ s with next := none }, ⟨charInt c, none, none, none, none⟩)
        else if nx ≠ [] then some ({ s with optind := s.optind + 1, next := none }, ⟨charInt c, some nx, none, none, none⟩)
        else if s.optind = s.argv.length then
          some ({ s with next := none }, ⟨if o.head? = some 58 then 58 else 63, none, some (charInt c), none, none⟩)
        else s.argv[s.optind]?.bind fun a => some ({ s with optind := s.optind + 1, next := none }, ⟨charInt c, some a, none, none, none⟩)
      else some (s, ⟨charInt c, none, none, none, none⟩)

/-- Decoding the current element (libcompat/getopt.c:413-623). -/
def decode (o : Str) (long : Option (List LongOpt)) (longOnly : Bool) (s : St) : Option (St × Call) :=
  s.next.bind fun nx =>
  match long with
  | none => short o s nx
  | some ls => s.argv[s.optind]?.bind fun a =>
    if (a.drop 1).head? = some 45 || (longOnly && ((a.drop 2).head?.isSome || ((a.drop 1).head?.bind (index o)).isNone)) then
      let nm := nx.takeWhile (· ≠ 61)
      let rest := nx.dropWhile (· ≠ 61)
      match findLong nm ls 0 none false with
      | (found, ambig, exact) =>
        if ambig && !exact then some ({ s with next := some [], optind := s.optind + 1 }, ⟨63, none, none, none, none⟩)
        else match found with
          | some f => longFound o s rest f
          | none =>
            if !longOnly || (a.drop 1).head? = some 45 || (nx.head?.bind (index o)).isNone then
              some ({ s with next := some [], optind := s.optind + 1 }, ⟨63, none, none, none, none⟩)
            else short o s nx
    else short o s nx

/-- The part of `_getopt_internal` after initialisation (libcompat/getopt.c:345-624). -/
def body (o : Str) (long : Option (List LongOpt)) (longOnly : Bool) (s : St) : Option (St × Call) :=
  if s.next = none ∨ s.next = some [] then
    (advance long.isSome s).bind fun
      | .ret s c => some (s, c)
      | .go s => decode o long longOnly s
  else decode o long longOnly s

/-- `_getopt_internal` (libcompat/getopt.c:330-624), `getopt` (libcompat/getopt.c:628-639: no long options), `getopt_long` and `getopt_long_only`
(libcompat/getopt1.c:59-85). -/
def call (posix : Bool) (o : Str) (long : Option (List LongOpt)) (longOnly : Bool) (s : St) : Option (St × Call) :=
  if s.optind = 0 then body (initState posix s o).2 long longOnly (initState posix s o).1 else body o long longOnly s

/-- A program calls until -1 (EOF) is returned; the list is what the calls before that gave. -/
inductive Run (posix : Bool) (o : Str) (long : Option (List LongOpt)) (longOnly : Bool) : St → List Call → St → Prop
  | eof {s s' c} : call posix o long longOnly s = some (s', c) → c.ret = -1 → Run posix o long longOnly s [] s'
  | more {s s' s'' c cs} : call posix o long longOnly s = some (s', c) → c.ret ≠ -1 → Run posix o long longOnly s' cs s'' → Run posix o long longOnly s (c :: cs) s''

end Getopt
