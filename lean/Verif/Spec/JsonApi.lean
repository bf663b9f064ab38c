import Verif.Spec.Json
import Verif.Model.JsonApi
/-! # Specification vocabulary for the JSON API: paths, cursors, visiting order -/
namespace JsonSpec
open Json (Bytes Elem EType)

/-- The text is a decimal number (leading zeros allowed) denoting `n`. -/
def IsIndex (t : Bytes) (n : Nat) : Prop := t ≠ [] ∧ t.all TrimSpec.digit = true ∧ NumSpec.value t = n

/-- Following a path: keys in objects, positions in arrays. -/
inductive Resolves : Elem → List Bytes → Elem → Prop
  | here {e : Elem} : Resolves e [] e
  | key {n : Option Bytes} {ks : List Elem} {k : Bytes} {c r : Elem} {p : List Bytes} :
      c ∈ ks → c.name = some k → Resolves c p r → Resolves (.cont n .object ks) (k :: p) r
  | index {n : Option Bytes} {ks : List Elem} {t : Bytes} {i : Nat} {c r : Elem} {p : List Bytes} :
      IsIndex t i → ks[i]? = some c → Resolves c p r → Resolves (.cont n .array ks) (t :: p) r

mutual
/-- An element and everything below it, parents before children, children in order. -/
def preorder : Elem → List Elem
  | .prim n t v => [.prim n t v]
  | .cont n t ks => .cont n t ks :: preorderAll ks
def preorderAll : List Elem → List Elem
  | [] => []
  | e :: es => preorder e ++ preorderAll es
end

/-- Visiting the elements of a list one by one until a visit says stop. -/
def visitUntil {σ : Type} (visit : σ → Elem → σ × Bool) : σ → List Elem → σ × Bool
  | s, [] => (s, true)
  | s, e :: es => if (visit s e).2 then visitUntil visit (visit s e).1 es else ((visit s e).1, false)

/-- Calls on an iterator. -/
inductive IterOp where
  | next
  | nextKey
  | nextByType (t : EType) (skipNull : Bool)
  | current
  | currentKey
  | hasMore

inductive IterRes where
  | elem (e : Option Elem)
  | key (k : Option Bytes)
  | bool (b : Bool)

/-- A cursor: the element handed out last and those to come. -/
abbrev Cursor := Option Elem × List Elem

/-- Moving to the next element. -/
def Cursor.next : Cursor → Cursor × Option Elem
  | (last, []) => ((last, []), none)
  | (_, e :: es) => ((some e, es), some e)

/-- Moving to the next element satisfying `p`; without one, the cursor ends behind the last element. -/
def Cursor.seek (p : Elem → Bool) : Option Elem → List Elem → Cursor × Option Elem
  | last, [] => ((last, []), none)
  | _, e :: es => if p e then ((some e, es), some e) else Cursor.seek p (some e) es

/-- What a type filter lets through. -/
def wanted (t : EType) (skipNull : Bool) (e : Elem) : Bool :=
  (match e, t with
   | .prim .., .primitive => true
   | .cont .., .container => true
   | _, _ => false) && !(skipNull && (match e with | .prim _ .null _ => true | _ => false))

def IterOp.onCursor (c : Cursor) : IterOp → Cursor × IterRes
  | .next => let r := c.next; (r.1, .elem r.2)
  | .nextKey => let r := c.next; (r.1, .key (r.2.bind Elem.name))
  | .nextByType t s => let r := Cursor.seek (wanted t s) c.1 c.2; (r.1, .elem r.2)
  | .current => (c, .elem c.1)
  | .currentKey => (c, .key (c.1.bind Elem.name))
  | .hasMore => (c, .bool (!c.2.isEmpty))

def cursorRun (c : Cursor) : List IterOp → List IterRes
  | [] => []
  | o :: os => (o.onCursor c).2 :: cursorRun (o.onCursor c).1 os

/-- The calls on the model's iterator. -/
def IterOp.onIter (it : Json.Iter) : IterOp → Option (Json.Iter × IterRes)
  | .next => (Json.iterNext it).map fun r => (r.1, .elem r.2)
  | .nextKey => (Json.iterNextKey it).map fun r => (r.1, .key r.2)
  | .nextByType t s => (Json.iterNextByType t s it).map fun r => (r.1, .elem r.2)
  | .current => (Json.iterCurrent it).map fun r => (it, .elem r)
  | .currentKey => (Json.iterCurrentKey it).map fun r => (it, .key r)
  | .hasMore => some (it, .bool (Json.iterHasMore it))

def iterRun (it : Json.Iter) : List IterOp → Option (List IterRes)
  | [] => some []
  | o :: os => do
    let r ← o.onIter it
    let rs ← iterRun r.1 os
    some (r.2 :: rs)

/-- Does the call ask for a key (allowed on objects only)? -/
def IterOp.asksKey : IterOp → Bool
  | .nextKey => true
  | .currentKey => true
  | _ => false

/-! ## Arrays as lists -/

/-- Calls on an array. -/
inductive ArrOp where
  | append (e : Elem)
  | extend (es : List Elem)
  | removeRange (start stop : Nat)
  | reverse

/-- A call on a list: the new list and the destroyed elements; `none` where the documented precondition (`start ≤ end < length`) fails. -/
def ArrOp.onList (l : List Elem) : ArrOp → Option (List Elem × List Elem)
  | .append e => some (l ++ [e], [])
  | .extend es => some (l ++ es, [])
  | .removeRange a b => if a ≤ b ∧ b < l.length then some (l.take a ++ l.drop (b + 1), (l.drop a).take (b + 1 - a)) else none
  | .reverse => some (l.reverse, [])

def listRun : List Elem → List ArrOp → Option (List Elem × List Elem)
  | l, [] => some (l, [])
  | l, o :: os => do
    let (l, d) ← o.onList l
    let (l, d') ← listRun l os
    some (l, d ++ d')

/-- An array with these elements, built by appending. -/
def arrOf (a : Json.Kids) : List Elem → Option Json.Kids
  | [] => some a
  | e :: es => do
    let a ← Json.arrAppend a e
    arrOf a es

/-- The calls on the model's array; the argument of `extend` is itself built by appending. -/
def ArrOp.onArr (a : Json.Kids) : ArrOp → Option (Json.Kids × List Elem)
  | .append e => (Json.arrAppend a e).map (·, [])
  | .extend es => do
    let b ← arrOf (Json.arrNew 0) es
    let a ← Json.arrExtend a b
    some (a, [])
  | .removeRange i j => Json.arrRemoveRange a i j
  | .reverse => (Json.arrReverse a).map (·, [])

def arrRun : Json.Kids → List ArrOp → Option (Json.Kids × List Elem)
  | a, [] => some (a, [])
  | a, o :: os => do
    let (a, d) ← o.onArr a
    let (a, d') ← arrRun a os
    some (a, d ++ d')

end JsonSpec
