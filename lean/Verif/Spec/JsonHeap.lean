import Verif.Model.JsonHeap
/-! # What the caller of the JSON API sees: programs, values, and memory

A program keeps elements in variables (numbered in the order of creation) and calls the API on them or on elements inside them. `valueStep` says what a call means if elements are plain values; `step` makes the call
on the heap. -/
namespace JsonHeapSpec
open Json JsonHeap

/-- The variable `var`, or what is reached from it by following the indices of children. -/
structure Target where
  var : Nat
  path : List Nat

/-- A call of the API. Creating, copying, merging and detaching put their result in a new variable; the element `y` of append, put and extend is given away, and destroy ends a variable. -/
inductive Cmd
  | string (b : Bytes)
  | integer (i : Int)
  | real (text : Bytes)
  | bool (b : Bool)
  | null
  | array
  | object
  | append (x : Target) (y : Nat)
  | put (x : Target) (key : Bytes) (y : Nat)
  | extend (x : Target) (y : Nat)
  | removeRange (x : Target) (start stop : Nat)
  | removeKey (x : Target) (key : Bytes)
  | detach (x : Target) (key : Bytes)
  | reverse (x : Target)
  | copy (x : Target)
  | merge (x y : Target)
  | destroy (y : Nat)

/-! ## As values -/

def sub : Elem → List Nat → Option Elem
  | e, [] => some e
  | .prim .., _ :: _ => none
  | .cont _ _ ks, i :: p => ks[i]?.bind fun k => sub k p

/-- Replacing the element at a path. -/
def modifyAt (f : Elem → Option Elem) : Elem → List Nat → Option Elem
  | e, [] => f e
  | .prim .., _ :: _ => none
  | .cont n t ks, i :: p => ks[i]?.bind fun k => (modifyAt f k p).map fun k' => .cont n t (ks.set i k')

abbrev Vals := List (Option Elem)

def value (vs : Vals) (x : Target) : Option Elem :=
  match vs[x.var]? with
  | some (some e) => sub e x.path
  | _ => none

def update (vs : Vals) (x : Target) (f : Elem → Option Elem) : Option Vals :=
  match vs[x.var]? with
  | some (some e) => (modifyAt f e x.path).map fun e' => vs.set x.var (some e')
  | _ => none

/-- Giving a variable away. -/
def take (vs : Vals) (y : Nat) : Option (Elem × Vals) :=
  match vs[y]? with
  | some (some e) => some (e, vs.set y none)
  | _ => none

def onArray (f : List Elem → Option (List Elem)) : Elem → Option Elem
  | .cont n .array ks => (f ks).map (.cont n .array)
  | _ => none

def onObject (f : List Elem → Option (List Elem)) : Elem → Option Elem
  | .cont n .object ks => (f ks).map (.cont n .object)
  | _ => none

def valueStep (rt : RealText) (vs : Vals) : Cmd → Option Vals
  | .string b => some (vs ++ [some (stringCreate b)])
  | .integer i => some (vs ++ [some (integerCreate i)])
  | .real t => some (vs ++ [some (.prim none .real t)])
  | .bool b => some (vs ++ [some (boolCreate b)])
  | .null => some (vs ++ [some nullCreate])
  | .array => some (vs ++ [some arrayCreate])
  | .object => some (vs ++ [some objectCreate])
  | .append x y => (take vs y).bind fun r => update r.2 x (onArray fun ks => some (ks ++ [r.1]))
  | .put x k y => (take vs y).bind fun r => update r.2 x (onObject fun ks => some (appendElement ks k r.1))
  | .extend x y => (take vs y).bind fun r =>
    match r.1 with
    | .cont _ .array ys => update r.2 x (onArray fun ks => some (ks ++ ys))
    | _ => none
  | .removeRange x i j => update vs x (onArray fun ks => if i ≤ j ∧ j < ks.length then some (ks.take i ++ ks.drop (j + 1)) else none)
  | .removeKey x k => update vs x (onObject fun ks => some (Json.removeKey ks k).1)
  | .detach x k =>
    match value vs x with
    | some (.cont _ .object ks) =>
      match Json.detachKey ks k with
      | some (_, d) => (update vs x (onObject fun ks => (Json.detachKey ks k).map (·.1))).map fun vs => vs ++ [d]
      | none => none
    | _ => none
  | .reverse x => update vs x (onArray fun ks => some ks.reverse)
  | .copy x => (value vs x).bind fun e => (Json.copy rt e).map fun e' => vs ++ [some e']
  | .merge x y => (value vs x).bind fun e => (value vs y).bind fun f => (Json.merge rt e f).map fun e' => vs ++ [some e']
  | .destroy y => (take vs y).map fun r => r.2

def runValues (rt : RealText) : List Cmd → Vals → Option Vals
  | [], vs => some vs
  | c :: cs, vs => (valueStep rt vs c).bind (runValues rt cs)

/-! ## On the heap -/

structure State where
  heap : Heap
  vars : List (Option Nat)

def start : State := ⟨Heap.empty, []⟩

def pointer (st : State) (x : Target) : Option Nat :=
  match st.vars[x.var]? with
  | some (some a) => resolve st.heap a x.path
  | _ => none

def push (st : State) (r : Nat × Heap) : State := ⟨r.2, st.vars ++ [some r.1]⟩

/-- Calling the functions of the model. -/
def step (rt : RealText) (st : State) : Cmd → Option State
  | .string b => some (push st (createText st.heap .string b))
  | .integer i => some (push st (createText st.heap .integer (intText i)))
  | .real t => some (push st (createText st.heap .real t))
  | .bool b => some (push st (createBool st.heap b))
  | .null => some (push st (createNull st.heap))
  | .array => some (push st (createContainer st.heap .array))
  | .object => some (push st (createContainer st.heap .object))
  | .append x y => (pointer st x).bind fun a => (pointer st ⟨y, []⟩).bind fun e => (arrAppend st.heap a e).map fun h => ⟨h, st.vars.set y none⟩
  | .put x k y => (pointer st x).bind fun a => (pointer st ⟨y, []⟩).bind fun e => (JsonHeap.put st.heap a (.lit k) e).map fun h => ⟨h, st.vars.set y none⟩
  | .extend x y => (pointer st x).bind fun a => (pointer st ⟨y, []⟩).bind fun e => (arrExtend st.heap a e).map fun h => ⟨h, st.vars.set y none⟩
  | .removeRange x i j => (pointer st x).bind fun a => (arrRemoveRange st.heap a i j).map fun h => ⟨h, st.vars⟩
  | .removeKey x k => (pointer st x).bind fun a => (JsonHeap.removeKey st.heap a (.lit k)).map fun h => ⟨h, st.vars⟩
  | .detach x k => (pointer st x).bind fun a => (JsonHeap.detachKey st.heap a (.lit k)).map fun r => ⟨r.2, st.vars ++ [r.1]⟩
  | .reverse x => (pointer st x).bind fun a => (arrReverse st.heap a).map fun h => ⟨h, st.vars⟩
  | .copy x => (pointer st x).bind fun a => (JsonHeap.copy rt st.heap a).map (push st)
  | .merge x y => (pointer st x).bind fun a => (pointer st y).bind fun b => (JsonHeap.merge rt st.heap a b).map (push st)
  | .destroy y => (pointer st ⟨y, []⟩).bind fun e => (JsonHeap.destroy st.heap e).map fun h => ⟨h, st.vars.set y none⟩

def run (rt : RealText) : List Cmd → State → Option State
  | [], st => some st
  | c :: cs, st => (step rt st c).bind (run rt cs)

/-- The value read through a pointer, at most `n` levels deep. -/
def viewN : Nat → Heap → Nat → Option Elem
  | 0, _, _ => none
  | n + 1, h, a =>
    match h.cell a with
    | some (.elem name body) =>
      let nm : Option (Option Bytes) :=
        match name with
        | none => some none
        | some q => (getStr h (.at q)).map some
      match nm, body with
      | some nm, .prim t v => (getStr h v).map (.prim nm t)
      | some nm, .cont t s =>
        match h.cell s with
        | some (.seq xs) => (xs.mapM (viewN n h)).map (.cont nm t)
        | _ => none
      | none, _ => none
    | _ => none

/-- What the element at this address is worth. -/
def view (h : Heap) (a : Nat) : Option Elem := viewN (h.next + 1) h a

end JsonHeapSpec
