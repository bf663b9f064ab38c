import Verif.Model.Json
/-! # Model of more of libutils/json.c: lengths, iterators, selection, walking, arrays, typed accessors

Same conventions as Model/Json.lean.  `none`: undefined behaviour, a failed assertion, or `DoCleanupAndExit`. -/
namespace Json

/-- `JsonLength` (json.c:533-548). -/
def length : Elem → Nat
  | .prim _ _ v => v.length
  | .cont _ _ ks => ks.length

/-- `JsonElementType` (json.h:50-54). -/
inductive EType where
  | container | primitive
  deriving DecidableEq, Repr

/-- `JsonGetElementType` (json.c:669-674). -/
def etype : Elem → EType
  | .prim .. => .primitive
  | .cont .. => .container

/-- The children of a container; the assertion that it is one. -/
def kidsOf : Elem → Option (List Elem)
  | .prim .. => none
  | .cont _ _ ks => some ks

/-- `JsonGetType(e) == JSON_TYPE_NULL` (json.c:671-680; the numbers of container and primitive types differ, json.h:56-80). -/
def isNull : Elem → Bool
  | .prim _ t _ => t == .null
  | .cont .. => false

/-! ## Iterators -/

/-- `JsonIterator` (json.h:163-167). -/
structure Iter where
  container : Elem
  index : Nat

/-- `JsonIteratorInit` (json.c:551-557). -/
def iterInit (e : Elem) : Option Iter := (kidsOf e).map fun _ => ⟨e, 0⟩

/-- `JsonIteratorNextValue` (json.c:570-583). -/
def iterNext (it : Iter) : Option (Iter × Option Elem) :=
  (kidsOf it.container).bind fun ks =>
    if it.index ≥ ks.length then some (it, none)
    else ks[it.index]?.map fun e => ({ it with index := it.index + 1 }, some e)

/-- The assertion that the container is an object (json.c:563, 624). -/
def isObject : Elem → Bool
  | .cont _ t _ => t == .object
  | .prim .. => false

/-- `JsonIteratorNextKey` (json.c:559-568); the inner `none` is NULL. -/
def iterNextKey (it : Iter) : Option (Iter × Option Bytes) :=
  if isObject it.container then (iterNext it).map fun r => (r.1, r.2.bind Elem.name) else none

/-- The loop of `JsonIteratorNextValueByType` (json.c:585-603); `fuel` bounds the iterations. -/
def iterNextByTypeLoop (t : EType) (skipNull : Bool) : Nat → Iter → Option (Iter × Option Elem)
  | 0, _ => none
  | fuel + 1, it =>
    (iterNext it).bind fun r =>
      match r.2 with
      | none => some (r.1, none)
      | some e =>
        if skipNull && isNull e then iterNextByTypeLoop t skipNull fuel r.1
        else if etype e = t then some (r.1, some e)
        else iterNextByTypeLoop t skipNull fuel r.1

/-- `JsonIteratorNextValueByType` (json.c:585-603). -/
def iterNextByType (t : EType) (skipNull : Bool) (it : Iter) : Option (Iter × Option Elem) :=
  iterNextByTypeLoop t skipNull (length it.container + 1) it

/-- `JsonIteratorCurrentValue` (json.c:605-618). -/
def iterCurrent (it : Iter) : Option (Option Elem) :=
  (kidsOf it.container).bind fun ks =>
    if it.index = 0 ∨ it.index > ks.length then some none else ks[it.index - 1]?.map some

/-- `JsonIteratorCurrentKey` (json.c:620-630). -/
def iterCurrentKey (it : Iter) : Option (Option Bytes) :=
  if isObject it.container then (iterCurrent it).map fun e => e.bind Elem.name else none

/-- `JsonIteratorCurrentElementType` (json.c:632-638): a NULL child is dereferenced. -/
def iterCurrentType (it : Iter) : Option EType := (iterCurrent it).bind fun e => e.map etype

/-- `JsonIteratorHasMore` (json.c:662-667). -/
def iterHasMore (it : Iter) : Bool := decide (it.index < length it.container)

/-! ## Selection -/

/-- `StringToLongExitOnError` (string_lib.c:628-639), then the conversion to `size_t` (json.c:852). -/
def indexOfText (t : Bytes) : Option Nat := (getAsInteger t).map fun v => (v % 2 ^ 64).toNat

/-- `JsonSelect` (json.c:828-868); the indices are C strings. -/
def select : Elem → List Bytes → Option (Option Elem)
  | e, [] => some (some e)
  | .prim .., _ :: _ => some none
  | .cont _ .object ks, i :: is =>
    (get ks i).bind fun c =>
      match c with
      | some c => select c is
      | none => some none
  | .cont _ .array ks, i :: is =>
    (Str.isNumeric ((i ++ [0]).map some)).bind fun numeric =>
      if numeric then
        (indexOfText i).bind fun n =>
          if n < ks.length then ks[n]?.bind fun c => select c is else some none
      else some none

/-! ## Walking -/

/-- A `JsonElementVisitor` (json.h) over a state `σ` reached through `data`; visitors that change the tree they walk are not modelled. -/
abbrev Visitor (σ : Type) := σ → Elem → σ × Bool

/-- Calling a visitor that may be NULL. -/
def callVisitor {σ : Type} (v : Option (Visitor σ)) (s : σ) (e : Elem) : σ × Bool :=
  match v with
  | some f => f s e
  | none => (s, true)

mutual
/-- `JsonWalk` (json.c:2790-2843). -/
def walk {σ : Type} (vo va vp : Option (Visitor σ)) : σ → Elem → σ × Bool
  | s, .prim n t v => callVisitor vp s (.prim n t v)
  | s, .cont n t ks =>
    let r := callVisitor (if t = .array then va else vo) s (.cont n t ks)
    if r.2 then walkKids vo va vp r.1 ks else (r.1, false)
/-- The loop over the children (json.c:2836-2843). -/
def walkKids {σ : Type} (vo va vp : Option (Visitor σ)) : σ → List Elem → σ × Bool
  | s, [] => (s, true)
  | s, k :: ks =>
    let r := walk vo va vp s k
    if r.2 then walkKids vo va vp r.1 ks else (r.1, false)
end

/-! ## Arrays, on the sequence of the children -/

/-- An array's children as the `Seq` they are stored in. -/
abbrev Kids := Seqn.Seq Elem

/-- `JsonArrayCreate` (json.c:1308-1312, 122-137). -/
def arrNew (cap : Nat) : Kids := Seqn.new cap true
/-- `JsonArrayAppendElement` (json.c:1363-1372), called by the other `JsonArrayAppend…` functions. -/
def arrAppend (a : Kids) (e : Elem) : Option Kids := Seqn.append a e
/-- `JsonArrayExtend` (json.c:1374-1390): the second array is freed without its elements. -/
def arrExtend (a b : Kids) : Option Kids := Seqn.appendSeq a b
/-- `JsonArrayRemoveRange` (json.c:1392-1402): the array and the destroyed elements. -/
def arrRemoveRange (a : Kids) (start stop : Nat) : Option (Kids × List Elem) :=
  if stop < a.length ∧ start ≤ stop then Seqn.removeRange a start stop else none
/-- `JsonArrayGet`, `JsonAt` (json.c:817-824, 1449-1456). -/
def arrGet (a : Kids) (i : Nat) : Option Elem := if i < a.length then Seqn.at_ a i else none
/-- `JsonContainerReverse` (json.c:1471-1478). -/
def arrReverse (a : Kids) : Option Kids := Seqn.reverse a
/-- The loop of `JsonArrayContainsOnlyPrimitives` (json.c:1451-1469) from `i`, `n` to go. -/
def arrOnlyPrimitivesLoop (a : Kids) : (i n : Nat) → Option Bool
  | _, 0 => some true
  | i, n + 1 => (arrGet a i).bind fun c => if etype c ≠ .primitive then some false else arrOnlyPrimitivesLoop a (i + 1) n
/-- `JsonArrayContainsOnlyPrimitives` (json.c:1451-1469). -/
def arrOnlyPrimitives (a : Kids) : Option Bool := arrOnlyPrimitivesLoop a 0 a.length

/-! ## Reading primitives -/

/-- `JsonPrimitiveGetAsBool` (json.c:743-750), `JsonObjectGetAsBool` (1233-1249). -/
def getAsBool : Elem → Option Bool
  | .prim _ .bool v => some (v == litTrue)
  | _ => none
/-- `JsonPrimitiveGetAsInteger` (json.c:752-759) on an element. -/
def primInteger : Elem → Option Int
  | .prim _ .integer v => getAsInteger v
  | _ => none
/-- `JsonPrimitiveGetAsInt64` (json.c:762-769): the error code or the value. -/
def primInt64 : Elem → Option (Except Int Int)
  | .prim _ .integer v => Str.stringToLong v
  | _ => none
/-- `JsonPrimitiveGetAsInt64DefaultOnError` (json.c:771-778). -/
def primInt64Default (d : Int) : Elem → Option Int
  | .prim _ .integer v => Str.stringToLongDefault v d
  | _ => none
/-- `JsonPrimitiveGetAsString` (json.c:703-709). -/
def primString : Elem → Option Bytes
  | .prim _ _ v => some v
  | .cont .. => none
/-- `JsonPrimitiveToString` (json.c:711-741): the inner `none` is NULL; `dbl` is `StringFromDouble` of `StringToDouble`, the C library's affair. -/
def primToString (dbl : Bytes → Bytes) : Elem → Option (Option Bytes)
  | .cont .. => some none
  | .prim _ .bool v => some (some (if v == litTrue then litTrue else litFalse))
  | .prim _ .integer v => (getAsInteger v).bind fun x => some (some (intText x))
  | .prim _ .real v => some (some (dbl v))
  | .prim _ .string v => some (some v)
  | .prim _ .null _ => some none

end Json
