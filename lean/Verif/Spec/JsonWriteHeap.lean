import Verif.Spec.JsonHeap
import Verif.Model.JsonWriteHeap
/-! # What the caller sees of documents that are also written -/
namespace JsonWriteSpec
open Json JsonHeap JsonHeapSpec

/-- A call of C133, or the writing of an element (or of one inside it). -/
inductive Call
  | api (c : Cmd)
  | write (x : Target) (lvl : Nat)
  | writeCompact (x : Target)

mutual
/-- The second element is the first with the members of its objects in the order of their names, and nothing else changed. -/
inductive Sorts : Elem → Elem → Prop
  | prim (n t v) : Sorts (.prim n t v) (.prim n t v)
  | array (n) {ks ks' : List Elem} : SortsAll ks ks' → Sorts (.cont n .array ks) (.cont n .array ks')
  | object (n) {ks ks' out : List Elem} : SortsAll ks ks' → out.Perm ks' → (out.Pairwise fun a b => ∀ x y, a.name = some x → b.name = some y → Str.cmpSign id x y ≤ 0) → Sorts (.cont n .object ks) (.cont n .object out)
inductive SortsAll : List Elem → List Elem → Prop
  | nil : SortsAll [] []
  | cons {k k' ks ks'} : Sorts k k' → SortsAll ks ks' → SortsAll (k :: ks) (k' :: ks')
end

mutual
/-- Every member of an object has a name. -/
def Named : Elem → Prop
  | .prim .. => True
  | .cont _ .array ks => NamedAll ks
  | .cont _ .object ks => NamedAll ks ∧ ∀ k ∈ ks, k.name ≠ none
def NamedAll : List Elem → Prop
  | [] => True
  | k :: ks => Named k ∧ NamedAll ks
end

mutual
/-- Every member of an object has a name, and no two have the same. -/
def Regular : Elem → Prop
  | .prim .. => True
  | .cont _ .array ks => RegularAll ks
  | .cont _ .object ks => RegularAll ks ∧ (∀ k ∈ ks, k.name ≠ none) ∧ (ks.map Elem.name).Nodup
def RegularAll : List Elem → Prop
  | [] => True
  | k :: ks => Regular k ∧ RegularAll ks
end

/-- A call on plain values: the text written, if any, and the values after it. -/
def valueCall (rt : RealText) (vs : Vals) : Call → Option (Option Bytes × Vals)
  | .api c => (valueStep rt vs c).map fun vs => (none, vs)
  | .write x lvl => (value vs x).bind fun e => (Json.jsonWrite lvl e).bind fun r => (update vs x fun _ => some r.2).map fun vs => (some r.1, vs)
  | .writeCompact x => (value vs x).bind fun e => (Json.writeCompact e).bind fun r => (update vs x fun _ => some r.2).map fun vs => (some r.1, vs)

def runValues (rt : RealText) : List Call → Vals → Option (List (Option Bytes) × Vals)
  | [], vs => some ([], vs)
  | c :: cs, vs => (valueCall rt vs c).bind fun r => (runValues rt cs r.2).map fun q => (r.1 :: q.1, q.2)

/-- The same call on the heap. -/
def call (rt : RealText) (st : State) : Call → Option (Option Bytes × State)
  | .api c => (step rt st c).map fun st => (none, st)
  | .write x lvl => (pointer st x).bind fun a => (JsonHeap.jsonWrite st.heap a lvl).map fun r => (some r.1, ⟨r.2, st.vars⟩)
  | .writeCompact x => (pointer st x).bind fun a => (JsonHeap.jsonWriteCompact st.heap a).map fun r => (some r.1, ⟨r.2, st.vars⟩)

def run (rt : RealText) : List Call → State → Option (List (Option Bytes) × State)
  | [], st => some ([], st)
  | c :: cs, st => (call rt st c).bind fun r => (run rt cs r.2).map fun q => (r.1 :: q.1, q.2)

/-- The plain meaning of a program with the writes left out. -/
def withoutWrites : List Call → List Cmd
  | [] => []
  | .api c :: cs => c :: withoutWrites cs
  | _ :: cs => withoutWrites cs

/-- Between two heaps only the order of pointers in arrays of children differs. -/
def OnlyOrder (h h' : Heap) : Prop :=
  h'.next = h.next ∧ ∀ a, h'.cell a = h.cell a ∨ ∃ xs ys, h.cell a = some (.seq xs) ∧ h'.cell a = some (.seq ys) ∧ ys.Perm xs

end JsonWriteSpec
