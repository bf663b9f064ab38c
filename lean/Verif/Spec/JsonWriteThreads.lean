import Verif.Spec.JsonWriteHeap
import Verif.Model.JsonWriteThreads
/-! # Threads that write documents at the same time -/
namespace JsonThreadSpec
open Json JsonHeap JsonHeapSpec

/-- The members of an object: named, the names strictly ascending. -/
def AscElems (ks : List Elem) : Prop := (∀ k ∈ ks, k.name ≠ none) ∧ ks.Pairwise fun a b => ∀ x y, a.name = some x → b.name = some y → Str.cmpSign id x y < 0

mutual
/-- The members of every object are in the order of their names, which differ. -/
def Canon : Elem → Prop
  | .prim .. => True
  | .cont _ .array ks => CanonAll ks
  | .cont _ .object ks => CanonAll ks ∧ AscElems ks
def CanonAll : List Elem → Prop
  | [] => True
  | k :: ks => Canon k ∧ CanonAll ks
end

/-- What one thread does: write an element in one of the formats. -/
inductive Job
  | write (x : Target) (lvl : Nat)
  | writeCompact (x : Target)

def Job.target : Job → Target
  | .write x _ => x
  | .writeCompact x => x

/-- The text that the plain value has. -/
def Job.text (e : Elem) : Job → Option Bytes
  | .write _ lvl => (Json.jsonWrite lvl e).map Prod.fst
  | .writeCompact _ => (Json.writeCompact e).map Prod.fst

/-- The thread. -/
def Job.prog (st : State) (a : Nat) : Job → Prog Bytes
  | .write _ lvl => jsonWriteP (st.heap.next + 1) a lvl
  | .writeCompact _ => jsonWriteCompactP (st.heap.next + 1) a

/-- The threads for these jobs. -/
def threads (st : State) (jobs : List Job) : Option (List (Prog Bytes)) := jobs.mapM fun j => (pointer st j.target).map fun a => j.prog st a

/-- The same as a call. -/
def Job.call : Job → JsonWriteSpec.Call
  | .write x lvl => .write x lvl
  | .writeCompact x => .writeCompact x

/-- Elements of which neither is inside the other, nor the other itself. -/
def Apart (x y : Target) : Prop := x.var ≠ y.var ∨ (¬ x.path <+: y.path ∧ ¬ y.path <+: x.path)

end JsonThreadSpec
