import Verif.Model.JsonHeap
/-! # Model of the memory of the JSON parser (libutils/json.c): what it allocates and frees, on every path

The parser of `Verif.Model.Json`, with the blocks of `Verif.Model.JsonHeap`. A string `Writer` is one block that becomes the string when it is closed for its data (writer.c:233-276). The parsing of strings, numbers and
words itself is that of `Verif.Model.Json`. A function that fails gives the error and whether it stored NULL in `*json_out` (otherwise `*json_out` is as it was). -/
namespace JsonHeap
open Json

/-- The heap, and an error (with whether `*json_out` was set to NULL) or the element and the position of `*data`. -/
abbrev HP := Option (Heap × Except (Err × Bool) (Nat × Nat))

/-- `JsonParseAsString` (json.c:2028-2103): the writer becomes the string, or is closed. -/
def hString (h : Heap) (s : Bytes) (p : Nat) : Option (Heap × Except Err (Nat × Nat)) :=
  let w := alloc h (.str [])
  match stringAt s p with
  | none => none
  | some (.error e) => (free w.2 w.1).map fun h => (h, .error e)
  | some (.ok (b, q)) => (store w.2 w.1 (.str b)).map fun h => (h, .ok (w.1, q))

/-- A string value (json.c:2242-2250, 2307-2319, 2490-2507): the text is parsed, an element with the decoded text made, the text freed. (In containers the text is freed after the element has been added.) -/
def hStringValue (h : Heap) (s : Bytes) (p : Nat) : HP :=
  match hString h s p with
  | none => none
  | some (h, .error e) => some (h, .error (e, false))
  | some (h, .ok (v, q)) => do
    let b ← getStr h (.at v)
    let r := createText h .string (decode b)
    let h ← free r.2 v
    some (h, .ok (r.1, q))

/-- `JsonParseAsNumber` (json.c:2105-2231). -/
def hNumber (h : Heap) (s : Bytes) (p : Nat) : HP :=
  let w := alloc h (.str [])
  match numLoop (s.drop p) p {} with
  | none => none
  | some (.error e) => (free w.2 w.1).map fun h => (h, .error (e, true))
  | some (.ok (.prim _ t b, q)) => (store w.2 w.1 (.str b)).map fun h =>
    let r := createPrimitive h t (.at w.1)
    (r.2, .ok (r.1, q))
  | some (.ok (.cont .., _)) => none

/-- `JsonParseAsBoolean` (json.c:1915-1939) and `JsonParseAsNull` (1942-1957), one after the other; nothing recognised: 2274. -/
def hWord (h : Heap) (s : Bytes) (p : Nat) : HP :=
  match wordAt s p with
  | none => none
  | some (.error e) => some (h, .error (e, true))
  | some (.ok (.prim _ t b, q)) =>
    let r := createPrimitive h t (.lit b)
    some (r.2, .ok (r.1, q))
  | some (.ok (.cont .., _)) => none

/-- Characters a number starts with (json.c:2255, 2382, 2648). -/
def startsNumber (c : UInt8) : Bool := c == 45 || c == 48 || isDigit19 c

/-- Numbers, booleans and null (json.c:2253-2276, 2382-2422, 2647-2690). -/
def hScalar (h : Heap) (s : Bytes) (p : Nat) (c : UInt8) : HP := if startsNumber c then hNumber h s p else hWord h s p

/-- `free(property_name)`, `JsonDestroy(object)`, `return err`. -/
def dropObject (h : Heap) (obj : Nat) (name : Option Nat) (e : Err) (null : Bool) : HP := do
  let h ← freeMaybe h name
  let h ← destroy h obj
  some (h, .error (e, null))

/-- `JsonDestroy(array)`, `return err`. -/
def dropArray (h : Heap) (arr : Nat) (e : Err) (null : Bool) : HP := do
  let h ← destroy h arr
  some (h, .error (e, null))

/-- Whether a failed value at `c` inside a container makes it store NULL in `*json_out`: only if it was nothing known (json.c:2420, 2687). -/
def unknown (c : UInt8) : Bool := !(c == 34 || c == 91 || c == 123 || startsNumber c)

mutual
/-- The value starting at `p` with character `c`, inside an array (json.c:2303-2360, 2381-2422) or an object (2489-2507, 2548-2593, 2645-2690). -/
def hValueAt : Nat → Heap → Bytes → Nat → UInt8 → HP
  | 0, _, _, _, _ => none
  | fuel + 1, h, s, p, c =>
    if c = 34 then hStringValue h s p
    else if c = 91 then
      let r := createContainer h .array
      hArrLoop fuel r.2 s (p + 1) 91 r.1
    else if c = 123 then
      let r := createContainer h .object
      hObjLoop fuel r.2 s (p + 1) 123 r.1 none
    else hScalar h s p c

/-- The loop of `JsonParseAsArray` (json.c:2301-2434). When a string in the array does not end, the array is not destroyed (2307-2313). -/
def hArrLoop : Nat → Heap → Bytes → Nat → UInt8 → Nat → HP
  | 0, _, _, _, _, _ => none
  | fuel + 1, h, s, p, prev, arr =>
    match rd s p with
    | none => none
    | some c =>
      if c = 0 then dropArray h arr .arrayEnd true
      else if isWs c then hArrLoop fuel h s (p + 1) prev arr
      else if c = 44 then
        if prev = 44 ∨ prev = 91 then dropArray h arr .arrayComma false else hArrLoop fuel h s (p + 1) c arr
      else if c = 93 then some (h, .ok (arr, p))
      else if (c = 91 ∨ c = 123) ∧ prev ≠ 91 ∧ prev ≠ 44 then dropArray h arr .arrayStart false
      else match hValueAt fuel h s p c with
        | none => none
        | some (h, .error (e, _)) => if c = 34 then some (h, .error (e, false)) else dropArray h arr e (unknown c)
        | some (h, .ok (x, q)) => do
          let h ← arrAppend h arr x
          let prev ← rd s q
          hArrLoop fuel h s (q + 1) prev arr

/-- The loop of `JsonParseAsObject` (json.c:2482-2701). -/
def hObjLoop : Nat → Heap → Bytes → Nat → UInt8 → Nat → Option Nat → HP
  | 0, _, _, _, _, _, _ => none
  | fuel + 1, h, s, p, prev, obj, name =>
    match rd s p with
    | none => none
    | some c =>
      if c = 0 then dropObject h obj name .objectEnd true
      else if isWs c then hObjLoop fuel h s (p + 1) prev obj name
      else if c = 58 then
        if name = none ∨ prev = 58 ∨ prev = 44 then dropObject h obj name .objectColon true else hObjLoop fuel h s (p + 1) c obj name
      else if c = 44 then
        if name ≠ none ∨ prev = 58 ∨ prev = 44 then dropObject h obj name .objectComma false else hObjLoop fuel h s (p + 1) c obj name
      else if c = 125 then
        if name ≠ none then dropObject h obj name .openLval true else some (h, .ok (obj, p))
      else match name with
        | some k =>
          match hValueAt fuel h s p c with
          | none => none
          | some (h, .error (e, _)) => dropObject h obj (some k) e (unknown c)
          | some (h, .ok (x, q)) => do
            let h ← put h obj (.at k) x
            let h ← free h k
            let prev ← rd s q
            hObjLoop fuel h s (q + 1) prev obj none
        | none =>
          if c = 34 then
            match hString h s p with
            | none => none
            | some (h, .error e) => dropObject h obj none e false
            | some (h, .ok (k, q)) => do
              let prev ← rd s q
              hObjLoop fuel h s (q + 1) prev obj (some k)
          else if c = 91 then dropObject h obj none .arrayLval false
          else if c = 123 then dropObject h obj none .objectLval true
          else match unquotedKey s p with
            | some colon =>
              let k := alloc h (.str ((s.drop p).take (backWs s colon - p)))
              hObjLoop fuel k.2 s (colon + 1) 58 obj (some k.1)
            | none => dropObject h obj none .badSymbol true
end

/-- The loop of `JsonParseWithLookup` (json.c:2719-2741), without a lookup function. -/
def hParseLoop (h : Heap) (s : Bytes) : (rest : Bytes) → (p : Nat) → HP
  | [], _ => some (h, .error (.noData, false))
  | c :: rest, p =>
    if c = 123 ∨ c = 91 then hValueAt (2 * s.length + 1) h s p c
    else if isWs c then hParseLoop h s rest (p + 1)
    else hValueAt (2 * s.length + 1) h s p c

/-- `JsonParse` (json.c:2703-2706). -/
def hParse (h : Heap) (s : Bytes) : HP := hParseLoop h s s 0

/-- `JsonParseAnyFile` for JSON (json.c:2746-2780): `file` is what `FileRead` gives (file_lib.c:64-74), the contents in a writer and whether they are cut; when they are, the writer is not closed. -/
def hParseFile (h : Heap) (file : Option (Bytes × Bool)) : HP :=
  match file with
  | none => some (h, .error (.noSuchFile, false))
  | some (s, cut) =>
    let w := alloc h (.str s)
    if cut then some (w.2, .error (.truncated, false))
    else match hParse w.2 s with
      | none => none
      | some (h, r) => (free h w.1).map fun h => (h, r.mapError fun e => (e.1, true))

end JsonHeap
