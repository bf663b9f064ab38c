import Verif.Spec.Strings
/-!
# What file patterns mean (C152)

`glob(3)` for patterns made of ordinary characters, `*` and `?`: component by component.  A path is the list of its components (an absolute one begins with
an empty component).
-/
namespace GlobSpec

/-- A component's pattern against a name: `*` any characters, `?` one. -/
def compMatch : List UInt8 → List UInt8 → Bool
  | [], s => s.isEmpty
  | x :: p, s =>
    if x = 42 then (List.range (s.length + 1)).any fun i => compMatch p (s.drop i)
    else match s with
      | [] => false
      | c :: s => (x == 63 || x == c) && compMatch p s

/-- A name that begins with a dot is matched only by a pattern that does. -/
def visible (p s : List UInt8) : Bool := s.head? != some 46 || p.head? == some 46

/-- All components match. -/
def pathMatch : List (List UInt8) → List (List UInt8) → Bool
  | [], [] => true
  | p :: ps, s :: ss => compMatch p s && visible p s && pathMatch ps ss
  | _, _ => false

/-- The path as text. -/
def text : List (List UInt8) → List UInt8
  | [] => []
  | [c] => c
  | c :: cs => c ++ 47 :: text cs

/-- `glob(3)` in a tree with these paths: the texts of those that match, `none` (GLOB_NOMATCH) if there are none. -/
def globIn (tree : List (List (List UInt8))) (pattern : List UInt8) : Option (List (List UInt8)) :=
  match tree.filter (pathMatch (TokenSpec.pieces (· == 47) pattern)) with
  | [] => none
  | l => some (l.map text)

/-- `d` levels: `*`, `*/*`, … -/
def levels : Nat → List UInt8
  | 0 => []
  | 1 => [42]
  | d + 2 => 42 :: 47 :: levels (d + 1)

/-- An ordinary character of a file name. -/
def ordinary (c : UInt8) : Prop := c ≠ 42 ∧ c ≠ 63 ∧ c ≠ 91 ∧ c ≠ 92 ∧ c ≠ 47 ∧ c ≠ 0

end GlobSpec
