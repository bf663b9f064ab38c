/-! # Specification: lists whose elements are compared by address

Without a compare function two elements match when they are the same object. The specification numbers the objects in the order in which the
client makes them; a list is a sequence of (object number, content). A client removes an object by its pointer, and only uses pointers of
objects that some list still holds. -/
namespace ListPtrSpec

inductive Op (V : Type) where
  | new
  | copy (l : Nat)
  /-- the client makes an object holding `v` and appends it -/
  | append (l : Nat) (v : V)
  | prepend (l : Nat) (v : V)
  /-- the client passes the pointer of the object numbered `k` -/
  | remove (l : Nat) (k : Nat)
  | destroy (l : Nat)

inductive Out where
  | handle (l : Nat)
  | result (r : Int)
deriving DecidableEq

structure S (V : Type) where
  /-- what each live list holds -/
  val : Nat → Option (List (Nat × V))
  /-- lists made so far -/
  next : Nat
  /-- objects made so far -/
  objs : Nat

def init {V : Type} : S V := { val := fun _ => none, next := 0, objs := 0 }

def S.set {V : Type} (s : S V) (l : Nat) (x : Option (List (Nat × V))) : S V :=
  { s with val := fun b => if b = l then x else s.val b }

/-- One call; a use of a dead list or of a dead object is the client's error and has no meaning. -/
inductive Step {V : Type} (s : S V) : Op V → S V → Out → Prop where
  | new : Step s .new { s.set s.next (some []) with next := s.next + 1 } (.handle s.next)
  | copy (l : Nat) (xs : List (Nat × V)) : s.val l = some xs → Step s (.copy l) s (.result (-1))
  | append (l : Nat) (xs : List (Nat × V)) (v : V) : s.val l = some xs →
      Step s (.append l v) { s.set l (some (xs ++ [(s.objs, v)])) with objs := s.objs + 1 } (.result 0)
  | prepend (l : Nat) (xs : List (Nat × V)) (v : V) : s.val l = some xs →
      Step s (.prepend l v) { s.set l (some ((s.objs, v) :: xs)) with objs := s.objs + 1 } (.result 0)
  /-- the object is in this list: it is taken out -/
  | remove (l : Nat) (xs ys : List (Nat × V)) (k : Nat) (v : V) : s.val l = some (xs ++ (k, v) :: ys) →
      Step s (.remove l k) (s.set l (some (xs ++ ys))) (.result 0)
  /-- the object is in another list: refused -/
  | refused (l l' : Nat) (xs xs' : List (Nat × V)) (k : Nat) (v : V) : s.val l = some xs → s.val l' = some xs' → (k, v) ∈ xs' →
      (∀ x ∈ xs, x.1 ≠ k) → Step s (.remove l k) s (.result (-1))
  | destroy (l : Nat) (xs : List (Nat × V)) : s.val l = some xs → Step s (.destroy l) (s.set l none) (.result 0)

inductive Run {V : Type} : S V → List (Op V) → S V → List Out → Prop where
  | nil (s : S V) : Run s [] s []
  | cons {s s1 s2 : S V} {op : Op V} {ops : List (Op V)} {o : Out} {os : List Out} :
      Step s op s1 o → Run s1 ops s2 os → Run s (op :: ops) s2 (o :: os)

end ListPtrSpec
