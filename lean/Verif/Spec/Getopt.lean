import Verif.Model.Getopt
/-! # Specification of getopt: reading a command line

A reading of the words behind the program name, left to right, with no index, no permutation and no memory between calls. -/
namespace Getopt.Spec
open Getopt (Str LongOpt Ordering Call charInt)

/-- How a character is declared in the option string. -/
inductive Decl where
  | unknown | flag | required | optional
  deriving DecidableEq, Repr

/-- The declaration of `c` by the option string: its first occurrence and the colons behind it. A colon declares nothing. -/
def decl (o : Str) (c : UInt8) : Decl :=
  if c = 58 ∨ c ∉ o then .unknown
  else match (o.dropWhile (· ≠ c)).drop 1 with
    | 58 :: 58 :: _ => .optional
    | 58 :: _ => .required
    | _ => .flag

/-- What a missing argument gives: ':' if the option string begins with a colon, else '?'. -/
def missing (o : Str) : Int := if o.head? = some 58 then 58 else 63

/-- The long option a (possibly abbreviated) name stands for. -/
inductive Look where
  | none | ambiguous | found (i : Nat) (p : LongOpt)
  deriving DecidableEq, Repr

/-- The entries with their positions. -/
def entries (ls : List LongOpt) : List (Nat × LongOpt) := (List.range ls.length).zip ls

/-- The first entry with exactly that name; else the only entry whose name it begins. -/
def look (ls : List LongOpt) (nm : Str) : Look :=
  match (entries ls).find? (fun e => e.2.name = nm) with
  | some e => .found e.1 e.2
  | Option.none =>
    match (entries ls).filter (fun e => nm <+: e.2.name) with
    | [] => .none
    | [e] => .found e.1 e.2
    | _ => .ambiguous

/-- A long option without its dashes, `name` or `name=value`, with the word behind it: what is returned and whether that word is taken as its argument;
nothing if there is no such option. -/
def longWord (o : Str) (ls : List LongOpt) (t : Str) (next : Option Str) : Option (Call × Bool) :=
  let give (i : Nat) (p : LongOpt) (arg : Option Str) : Call :=
    if p.flag then { ret := 0, optarg := arg, longind := some i, flagSet := some p.val } else { ret := p.val, optarg := arg, longind := some i }
  match look ls (t.takeWhile (· ≠ 61)) with
  | .none => none
  | .ambiguous => some ({ ret := 63 }, false)
  | .found i p =>
    if 61 ∈ t then
      if p.hasArg = 0 then some ({ ret := 63 }, false) else some (give i p (some ((t.dropWhile (· ≠ 61)).drop 1)), false)
    else if p.hasArg = 1 then
      match next with
      | some a => some (give i p (some a), true)
      | none => some ({ ret := missing o }, false)
    else some (give i p none, false)

/-- The characters of a word of short options, with the word behind it. `long` are the long options to try first on what is left of the word (only with
`getopt_long_only`). -/
def cluster (o : Str) (long : Option (List LongOpt)) : Str → Option Str → List Call × Bool
  | [], _ => ([], false)
  | c :: t, next =>
    match long.bind fun ls => longWord o ls (c :: t) next with
    | some (r, taken) => ([r], taken)
    | none =>
      match decl o c with
      | .unknown =>
        if long.isSome ∧ c ∉ o then ([{ ret := 63 }], false)
        else
          let r := cluster o long t next
          ({ ret := 63, optopt := some (charInt c) } :: r.1, r.2)
      | .flag =>
        let r := cluster o long t next
        ({ ret := charInt c } :: r.1, r.2)
      | .optional => ([{ ret := charInt c, optarg := if t = [] then none else some t }], false)
      | .required =>
        if t ≠ [] then ([{ ret := charInt c, optarg := some t }], false)
        else match next with
          | some a => ([{ ret := charInt c, optarg := some a }], true)
          | none => ([{ ret := missing o, optopt := some (charInt c) }], false)

/-- A word that is an option: what the calls return for it and whether it takes the next word as argument. -/
def word (o : Str) (long : Option (List LongOpt)) (longOnly : Bool) (a : Str) (next : Option Str) : List Call × Bool :=
  match long with
  | none => cluster o none (a.drop 1) next
  | some ls =>
    if [45, 45] <+: a then
      match longWord o ls (a.drop 2) next with
      | some (r, taken) => ([r], taken)
      | none => ([{ ret := 63 }], false)
    else if longOnly ∧ (2 < a.length ∨ ∀ c ∈ a.drop 1, c ∉ o) then cluster o (some ls) (a.drop 1) next
    else cluster o none (a.drop 1) next

/-- Is the word an operand: not beginning with a dash, or only a dash? -/
def operand (a : Str) : Prop := a = [45] ∨ ¬[45] <+: a

instance (a : Str) : Decidable (operand a) := by unfold operand; infer_instance

/-- A command line's reading: what the calls return, the words that were options or their arguments, and the operands left over. -/
structure Reading where
  calls : List Call
  options : List Str
  operands : List Str
  deriving DecidableEq, Repr

/-- The reading of the words behind the program name. -/
def reading (ord : Ordering) (o : Str) (long : Option (List LongOpt)) (longOnly : Bool) : List Str → Reading
  | [] => ⟨[], [], []⟩
  | a :: as =>
    if a = [45, 45] then ⟨[], [a], as⟩
    else if operand a then
      match ord with
      | .require => ⟨[], [], a :: as⟩
      | .permute => let r := reading ord o long longOnly as; ⟨r.calls, r.options, a :: r.operands⟩
      | .inOrder => let r := reading ord o long longOnly as; ⟨{ ret := 1, optarg := some a } :: r.calls, a :: r.options, r.operands⟩
    else
      let w := word o long longOnly a as.head?
      if w.2 then let r := reading ord o long longOnly as.tail; ⟨w.1 ++ r.calls, a :: (as.take 1 ++ r.options), r.operands⟩
      else let r := reading ord o long longOnly as; ⟨w.1 ++ r.calls, a :: r.options, r.operands⟩
termination_by as => as.length
decreasing_by all_goals (simp only [List.length_cons, List.length_tail]; omega)

/-- Where the first character of the option string selects the ordering. -/
inductive Prefix where
  | none | plus | minus
  deriving DecidableEq, Repr

def Prefix.bytes : Prefix → Str
  | .none => [] | .plus => [43] | .minus => [45]

def Prefix.ordering (posix : Bool) : Prefix → Ordering
  | .none => if posix then .require else .permute
  | .plus => .require
  | .minus => .inOrder

/-- The characters that may be looked up as short options in a word. -/
def shortText (long : Option (List LongOpt)) (a : Str) : Str := if long.isSome ∧ [45, 45] <+: a then [] else a.drop 1

end Getopt.Spec
