import Verif.Spec.List
/-! # Specification of a mutable iterator: a cursor that edits the sequence around it -/
namespace ListSpec

inductive MOp (V : Type) where
  | move (op : ItOp)
  | prepend (v : V)
  | append (v : V)
  | remove
  | listRemove (v : V)

/-- One call with the cursor on index `i` of `xs`: the new sequence and cursor, and the answer. `prepend` and `append` put an element before or behind the cursor, which stays
on its element; `remove` takes the cursor's element out and goes to the next one, or if there is none to the previous one; the only element is not removed.
`listRemove` is ListRemove on the list itself: it takes the first element equal to `v` out; the cursor stays on its element, or if that is the one removed goes on as
above; with the only element gone there is no cursor any more. -/
def mStep {V : Type} (eqv : V → V → Bool) (xs : List V) (i : Nat) : MOp V → List V × Option Nat × ItOut V
  | .move op => (xs, some (itStep xs i op).1, (itStep xs i op).2)
  | .prepend v => (xs.take i ++ v :: xs.drop i, some (i + 1), .flag true)
  | .append v => (xs.take (i + 1) ++ v :: xs.drop (i + 1), some i, .flag true)
  | .remove =>
    if xs.length = 1 then (xs, some i, .flag false)
    else (xs.take i ++ xs.drop (i + 1), some (if i + 1 < xs.length then i else i - 1), .flag true)
  | .listRemove v =>
    match xs.findIdx? (fun x => eqv x v) with
    | none => (xs, some i, .flag false)
    | some k =>
      (xs.take k ++ xs.drop (k + 1),
        if k < i then some (i - 1) else if i < k then some i else if i + 1 < xs.length then some i else if 0 < i then some (i - 1) else none, .flag true)

/-- A history of calls; `none` if a call is made on a cursor that is gone. -/
def mRun {V : Type} (eqv : V → V → Bool) (xs : List V) (cur : Option Nat) : List (MOp V) → Option (List V × Option Nat × List (ItOut V))
  | [] => some (xs, cur, [])
  | op :: ops =>
    match cur with
    | none => none
    | some i =>
      let r := mStep eqv xs i op
      match mRun eqv r.1 r.2.1 ops with
      | none => none
      | some q => some (q.1, q.2.1, r.2.2 :: q.2.2)

end ListSpec
