import Verif.Model.PcreWrap
/-! # Specification of search and replace: Perl's replacement syntax and the substitution itself -/
namespace PcreWrap.Spec
open PcreWrap (Bytes Answer Exec)

/-- A piece of a replacement. -/
inductive Piece where
  | lit (c : UInt8)
  | group (n : Nat)
  | before
  | after
  deriving DecidableEq, Repr

def digit (c : UInt8) : Bool := 48 ≤ c && c ≤ 57
def number (ds : Bytes) : Nat := ds.foldl (fun v c => 10 * v + (c.toNat - 48)) 0

/-- The escapes `\t \n \r \f \a \e \0`. -/
def escapes : List (UInt8 × UInt8) := [(116, 9), (110, 10), (114, 13), (102, 12), (97, 7), (101, 27), (48, 0)]

/-- The pieces a replacement is written with: `\1`, `$1`, `$&`, `$+` (the last group), `` $` ``, `$'`, the escapes above, a backslash before any other character to take it
literally; everything else stands for itself. -/
def pieces (groups : Nat) : Bytes → List Piece
  | [] => []
  | [c] => if c = 92 then [] else [.lit c]
  | c :: d :: rest =>
    if c = 92 then
      if digit d && d ≠ 48 then .group (number ((d :: rest).takeWhile digit)) :: pieces groups ((d :: rest).dropWhile digit)
      else match escapes.lookup d with
        | some x => .lit x :: pieces groups rest
        | none => .lit d :: pieces groups rest
    else if c = 36 then
      if digit d then .group (number ((d :: rest).takeWhile digit)) :: pieces groups ((d :: rest).dropWhile digit)
      else if d = 38 then .group 0 :: pieces groups rest
      else if d = 43 then .group groups :: pieces groups rest
      else if d = 96 then .before :: pieces groups rest
      else if d = 39 then .after :: pieces groups rest
      else .lit 36 :: pieces groups (d :: rest)
    else .lit c :: pieces groups (d :: rest)
termination_by l => l.length
decreasing_by
  all_goals simp only [List.length_cons]
  all_goals first
    | omega
    | (have := (List.dropWhile_sublist digit (l := d :: rest)).length_le; simp only [List.length_cons] at this; omega)

/-- A match: the pairs of offsets of the whole match and the groups (`none`: group not set). -/
abbrev Match := List (Option (Nat × Nat))

def slice (s : Bytes) (a b : Nat) : Bytes := (s.drop a).take (b - a)

/-- The text of a group; empty if it is not set or does not exist. -/
def groupText (subject : Bytes) (m : Match) (n : Nat) : Bytes :=
  match m[n]? with
  | some (some (a, b)) => slice subject a b
  | _ => []

def start (m : Match) : Nat := match m with | some (a, _) :: _ => a | _ => 0
def stop (m : Match) : Nat := match m with | some (_, b) :: _ => b | _ => 0

/-- What a piece stands for in a match. -/
def Piece.text (subject : Bytes) (m : Match) : Piece → Bytes
  | .lit c => [c]
  | .group n => groupText subject m n
  | .before => subject.take (start m)
  | .after => subject.drop (stop m)

/-- The subject from `pos` on with every match replaced. -/
def substitute (subject : Bytes) (ps : List Piece) : List Match → Nat → Bytes
  | [], pos => subject.drop pos
  | m :: ms, pos => slice subject pos (start m) ++ ps.flatMap (Piece.text subject m) ++ substitute subject ps ms (stop m)

/-- What PCRE guarantees of its answers on a subject of length `len`: a code that is not positive, or one to 33 pairs, all in the subject, the first at or behind the start
offset. (Patterns that use `\K` in a lookahead to end before they begin are excluded.) -/
def Contract (exec : Exec) (len : Nat) : Prop :=
  ∀ off, off ≤ len → match exec off with
    | .code c => c ≤ 0
    | .found m => m.length ≤ 33 ∧ (∃ b e, m.head? = some (some (b, e)) ∧ off ≤ b) ∧ ∀ a b, some (a, b) ∈ m → a ≤ b ∧ b ≤ len

/-- The matches a global search visits from an offset on: each search starts where the last match ended; after an empty match there, one further. -/
inductive Scan (exec : Exec) (len : Nat) : Nat → List Match → Prop
  | none {off c} : exec off = .code c → -1 ≤ c → Scan exec len off []
  | next {off m ms} : exec off = .found m → stop m ≠ off → Scan exec len (stop m) ms → Scan exec len off (m :: ms)
  | empty {off m ms} : exec off = .found m → stop m = off → off < len → Scan exec len (off + 1) ms → Scan exec len off (m :: ms)
  | last {off m} : exec off = .found m → stop m = off → off = len → Scan exec len off [m]

/-- The matches to replace: all of them with the option g, else the first. -/
inductive Matches (exec : Exec) (len : Nat) : Bool → List Match → Prop
  | all {ms} : Scan exec len 0 ms → Matches exec len true ms
  | one {m} : exec 0 = .found m → Matches exec len false [m]
  | no {c} : exec 0 = .code c → -1 ≤ c → Matches exec len false []

/-- Replacements the code handles: at most 32 references, to groups up to 32, no references to the text before or behind the match, no NUL. -/
def Handled (ps : List Piece) : Prop :=
  (ps.filter fun p => match p with | .lit _ => false | _ => true).length ≤ 32 ∧
  ∀ p ∈ ps, match p with | .lit c => c ≠ 0 | .group n => n ≤ 32 | _ => False

end PcreWrap.Spec
