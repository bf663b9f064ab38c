/-! # Specification: lists as independent values

Every list handle denotes its own finite sequence. Copying a list makes a new handle denoting the same sequence; an update changes
the sequence of the handle it is applied to and of no other. -/
namespace ListSpec

inductive Op (V : Type) where
  | new
  | copy (l : Nat)
  | append (l : Nat) (v : V)
  | prepend (l : Nat) (v : V)
  | remove (l : Nat) (v : V)
  | destroy (l : Nat)

inductive Out where
  | handle (l : Nat)
  | result (r : Int)
deriving DecidableEq

/-- What each live handle denotes. -/
structure S (V : Type) where
  val : Nat → Option (List V)
  next : Nat

def init {V : Type} : S V := { val := fun _ => none, next := 0 }

def S.set {V : Type} (s : S V) (l : Nat) (x : Option (List V)) : S V :=
  { s with val := fun b => if b = l then x else s.val b }

/-- One call. `none` means that the client used a handle that is not live. `eqv x v` says that element `x` matches `v`. -/
def step {V : Type} (eqv : V → V → Bool) (s : S V) : Op V → Option (S V × Out)
  | .new => some ({ s.set s.next (some []) with next := s.next + 1 }, .handle s.next)
  | .copy l => (s.val l).map fun xs => ({ s.set s.next (some xs) with next := s.next + 1 }, .handle s.next)
  | .append l v => (s.val l).map fun xs => (s.set l (some (xs ++ [v])), .result 0)
  | .prepend l v => (s.val l).map fun xs => (s.set l (some (v :: xs)), .result 0)
  | .remove l v => (s.val l).map fun xs =>
      if xs.any (fun x => eqv x v) then (s.set l (some (xs.eraseP (fun x => eqv x v))), .result 0) else (s, .result (-1))
  | .destroy l => (s.val l).map fun _ => (s.set l none, .result 0)

def run {V : Type} (eqv : V → V → Bool) (s : S V) : List (Op V) → Option (S V × List Out)
  | [] => some (s, [])
  | op :: ops =>
    match step eqv s op with
    | none => none
    | some (s, o) =>
      match run eqv s ops with
      | none => none
      | some (s, os) => some (s, o :: os)

/-- One call on lists made without a copy function: copying a list is refused. -/
def stepAlone {V : Type} (eqv : V → V → Bool) (s : S V) : Op V → Option (S V × Out)
  | .copy l => (s.val l).map fun _ => (s, .result (-1))
  | op => step eqv s op

def runAlone {V : Type} (eqv : V → V → Bool) (s : S V) : List (Op V) → Option (S V × List Out)
  | [] => some (s, [])
  | op :: ops =>
    match stepAlone eqv s op with
    | none => none
    | some (s, o) =>
      match runAlone eqv s ops with
      | none => none
      | some (s, os) => some (s, o :: os)

/-! ## An iterator is a cursor: an index into the sequence -/

inductive ItOp where
  | first | last | next | previous | data | hasNext | hasPrevious

inductive ItOut (V : Type) where
  | flag (b : Bool)
  | value (v : Option V)

/-- One iterator call with the cursor on index `i` of `xs`. -/
def itStep {V : Type} (xs : List V) (i : Nat) : ItOp → Nat × ItOut V
  | .first => (0, .flag true)
  | .last => (xs.length - 1, .flag true)
  | .next => if i + 1 < xs.length then (i + 1, .flag true) else (i, .flag false)
  | .previous => if 0 < i then (i - 1, .flag true) else (i, .flag false)
  | .data => (i, .value xs[i]?)
  | .hasNext => (i, .flag (decide (i + 1 < xs.length)))
  | .hasPrevious => (i, .flag (decide (0 < i)))

def itRun {V : Type} (xs : List V) (i : Nat) : List ItOp → List (ItOut V)
  | [] => []
  | op :: ops => (itStep xs i op).2 :: itRun xs (itStep xs i op).1 ops

end ListSpec

/-! # Specification: reference counter = the list of current owners -/
namespace RefCountSpec

inductive Op where
  | attach (owner : Nat)
  | detach (owner : Nat)

inductive Out where
  | ok
  | programmingError
deriving DecidableEq

/-- The last owner is never dropped; detaching somebody who is not an owner of a shared counter is a programming error. -/
def step (owners : List Nat) : Op → List Nat × Out
  | .attach o => (owners ++ [o], .ok)
  | .detach o =>
    if owners.length ≤ 1 then (owners, .ok)
    else if o ∈ owners then (owners.erase o, .ok)
    else (owners, .programmingError)

/-- A programming error ends the program. -/
def run (owners : List Nat) : List Op → List Nat × Out
  | [] => (owners, .ok)
  | op :: ops =>
    match step owners op with
    | (o, .ok) => run o ops
    | (o, .programmingError) => (o, .programmingError)

end RefCountSpec
