import Verif.Model.JsonHeap
/-! # Model of `JsonWrite` and `JsonWriteCompact` (libutils/json.c) on the blocks of `Verif.Model.JsonHeap`

Writing is not read-only: the children of every object are sorted in place before they are written, although the element is passed as `const`. The texts are put together as in `Verif.Model.Json`; the Writer is
not part of the heap (C09, C162). `none` is as in `Verif.Model.JsonHeap`, and a child of an object without a name, which the code asserts there is none of. -/
namespace JsonHeap
open Json

/-- How the texts of the children become the text of an array and of an object, at a level of indentation. -/
structure Style where
  array : Nat → List Bytes → Bytes
  object : Nat → List (Bytes × Bytes) → Bytes

/-- `JsonArrayWrite` (json.c:1607-1646), `JsonObjectWrite` (1695-1739). -/
def pretty : Style where
  array lvl ts := if ts.isEmpty then [91, 93] else [91, 10] ++ arrayLines lvl ts ++ indent lvl ++ [93]
  object lvl ts := [123, 10] ++ objectLines lvl ts ++ indent lvl ++ [125]

/-- `JsonArrayWriteCompact` (json.c:1791-1819), `JsonObjectWriteCompact` (1829-1865). -/
def compact : Style where
  array _ ts := if ts.isEmpty then [91, 93] else [91] ++ arrayCompact ts ++ [93]
  object _ ts := [123] ++ objectCompact ts ++ [125]

/-- The name of an element, read through its pointer. -/
def nameOf (h : Heap) (x : Nat) : Option Bytes := do
  let nb ← getElem h x
  let n ← nb.1
  getStr h (.at n)

/-- The children with their names, which `JsonElementPropertyCompare` (json.c:1646-1657) reads during the sort. -/
def named (h : Heap) : List Nat → Option (List (Bytes × Nat))
  | [] => some []
  | x :: xs => (nameOf h x).bind fun k => (named h xs).map ((k, x) :: ·)

/-- `JsonSort` (json.c:805-815) with `JsonElementPropertyCompare` (json.c:1646-1657): the pointers in the array are sorted in place, by the model of `SeqSort` (C01). The names are read once, before the sort: it changes none. -/
def sortChildren (h : Heap) (s : Nat) : Option Heap := do
  let xs ← getSeq h s
  let nx ← named h xs
  let q ← Seqn.sort (fun a b : Bytes × Nat => Str.cmpSign id a.1 b.1) { hasDestroy := true, data := nx.map some ++ [none], length := nx.length, capacity := nx.length + 1 }
  let ys ← CMem.getRange q.data 0 q.length
  store h s (.seq (ys.map Prod.snd))

/-- The loop over the children of an array (json.c:1616-1643, 1799-1817): `w` writes a child. -/
def writeEach (w : Heap → Nat → Option (Bytes × Heap)) : Heap → List Nat → Option (List Bytes × Heap)
  | h, [] => some ([], h)
  | h, x :: xs => do
    let r ← w h x
    let rs ← writeEach w r.2 xs
    some (r.1 :: rs.1, rs.2)

/-- The loop over the children of an object (json.c:1708-1736, 1840-1863). -/
def writeEachNamed (w : Heap → Nat → Option (Bytes × Heap)) : Heap → List Nat → Option (List (Bytes × Bytes) × Heap)
  | h, [] => some ([], h)
  | h, x :: xs => do
    let k ← nameOf h x
    let r ← w h x
    let rs ← writeEachNamed w r.2 xs
    some ((k, r.1) :: rs.1, rs.2)

/-- `JsonContainerWrite` (json.c:1735-1752), `JsonArrayWrite` (1596-1647), `JsonObjectWrite` (1685-1740), and their compact forms (1783-1883), the depth of the calls bounded by the first argument. A primitive is written without indentation. -/
def writeN (st : Style) : Nat → Nat → Heap → Nat → Option (Bytes × Heap)
  | 0, _, _, _ => none
  | n + 1, lvl, h, e => do
    let nb ← getElem h e
    match nb.2 with
    | .prim t v => (getStr h v).map fun b => (primText t b, h)
    | .cont .array s => do
      let xs ← getSeq h s
      let r ← writeEach (writeN st n (lvl + 1)) h xs
      some (st.array lvl r.1, r.2)
    | .cont .object s => do
      let h ← sortChildren h s
      let xs ← getSeq h s
      let r ← writeEachNamed (writeN st n (lvl + 1)) h xs
      some (st.object lvl r.1, r.2)

/-- `JsonWrite` (json.c:1754-1775): a primitive is indented. -/
def jsonWrite (h : Heap) (e lvl : Nat) : Option (Bytes × Heap) := do
  let nb ← getElem h e
  let r ← writeN pretty (h.next + 1) lvl h e
  match nb.2 with
  | .prim .. => some (indent lvl ++ r.1, r.2)
  | .cont .. => some r

/-- `JsonWriteCompact` (json.c:1885-1903). -/
def jsonWriteCompact (h : Heap) (e : Nat) : Option (Bytes × Heap) := writeN compact (h.next + 1) 0 h e

end JsonHeap
