import Verif.Model.StrNum
import Verif.Model.Seq
/-! # Model of libutils/json.c: elements, strings, objects, writing and parsing

A C string is the list of its bytes before the terminator.  The children of a container are the contents of its `Seq` (a list: `SeqAppend`,
`SeqRemove`, `SeqAt`, `SeqLookup`, `SeqIndexOf` do on lists what C01-C04 prove of model Seqn; `SeqSort` is run in model Seqn).  Elements are
trees: two containers never share a child, and memory ownership is not represented (it is in `Model/JsonHeap.lean`).  Text sent to a `Writer` is the list of the bytes
written (C19). `none`: undefined behaviour, a failed assertion, or `DoCleanupAndExit`. -/
namespace Json

abbrev Bytes := List UInt8

/-- `JsonPrimitiveType` (json.h:63-69). -/
inductive PType where
  | string | integer | real | bool | null
  deriving DecidableEq, Repr

/-- `JsonContainerType` (json.h:57-60). -/
inductive CType where
  | object | array
  deriving DecidableEq, Repr

/-- `struct JsonElement_` (json.c:52-75): property name, then the primitive's type and text, or the container's type and children. -/
inductive Elem where
  | prim (name : Option Bytes) (t : PType) (v : Bytes)
  | cont (name : Option Bytes) (t : CType) (kids : List Elem)

/-- `JsonElementGetPropertyName` (json.c:113-118). -/
def Elem.name : Elem → Option Bytes
  | .prim n _ _ => n
  | .cont n _ _ => n

/-- `JsonElementSetPropertyName` (json.c:96-111). -/
def Elem.setName (e : Elem) (n : Option Bytes) : Elem :=
  match e with
  | .prim _ t v => .prim n t v
  | .cont _ t ks => .cont n t ks

/-! ## Primitives -/

/-- "true", "false", "null" (json.c:46-48). -/
def litTrue : Bytes := [116, 114, 117, 101]
def litFalse : Bytes := [102, 97, 108, 115, 101]
def litNull : Bytes := [110, 117, 108, 108]

/-- `JsonStringCreate` (json.c:1484-1490). -/
def stringCreate (v : Bytes) : Elem := .prim none .string v
/-- `printf` with `%d`, `%ld`, PRIi64 (C library). -/
def intText (v : Int) : Bytes := if v < 0 then 45 :: Str.natText v.natAbs else Str.natText v.natAbs
/-- `JsonIntegerCreate` (json.c:1492-1498). -/
def integerCreate (v : Int) : Elem := .prim none .integer (intText v)
/-- `JsonIntegerCreate64` (json.c:1500-1506). -/
def integerCreate64 (v : Int) : Elem := .prim none .integer (intText v)
/-- The text `printf("%.4f")` gives for a double whose magnitude rounds to `n` ten-thousandths; `neg` is its sign bit (C library). -/
def fixed4 (neg : Bool) (n : Nat) : Bytes :=
  (if neg then [45] else []) ++ Str.natText (n / 10000) ++ [46] ++
    (Str.natText (n % 10000 / 1000) ++ Str.natText (n % 1000 / 100) ++ Str.natText (n % 100 / 10) ++ Str.natText (n % 10))
/-- `JsonRealCreate` (json.c:1508-1519): `none` is a NaN or an infinity; `snprintf` into 32 bytes. -/
def realCreate (x : Option (Bool × Nat)) : Elem :=
  let (neg, n) := x.getD (false, 0)
  .prim none .real ((fixed4 neg n).take 31)
/-- `JsonBoolCreate` (json.c:1521-1525). -/
def boolCreate (b : Bool) : Elem := .prim none .bool (if b then litTrue else litFalse)
/-- `JsonNullCreate` (json.c:1527-1530). -/
def nullCreate : Elem := .prim none .null litNull
/-- `JsonArrayCreate` (json.c:1308-1312). -/
def arrayCreate : Elem := .cont none .array []
/-- `JsonObjectCreate` (json.c:882-886). -/
def objectCreate : Elem := .cont none .object []

/-- `JsonPrimitiveGetAsInteger` (json.c:752-759): exits if the text is not a `long`. -/
def getAsInteger (v : Bytes) : Option Int := do
  match ← Str.stringToLong v with
  | .ok x => some x
  | .error _ => none

/-! ## Strings -/

/-- The switch of `JsonEncodeStringWriter` (json.c:888-926). -/
def encodeChar (c : UInt8) : Bytes :=
  if c = 34 ∨ c = 92 then [92, c]
  else if c = 8 then [92, 98]
  else if c = 12 then [92, 102]
  else if c = 10 then [92, 110]
  else if c = 13 then [92, 114]
  else if c = 9 then [92, 116]
  else [c]
/-- `JsonEncodeString` (json.c:888-935). -/
def encode : Bytes → Bytes
  | [] => []
  | c :: s => encodeChar c ++ encode s

/-- The inner switch of `JsonDecodeStringWriter` (json.c:947-974) on `c[1]`: the character written when the sequence is consumed. -/
def decodeEscape (d : UInt8) : Option UInt8 :=
  if d = 34 ∨ d = 92 then some d
  else if d = 98 then some 8
  else if d = 102 then some 12
  else if d = 110 then some 10
  else if d = 114 then some 13
  else if d = 116 then some 9
  else none
/-- `JsonDecodeString` (json.c:937-992). -/
def decode : Bytes → Bytes
  | [] => []
  | [c] => [c]
  | c :: d :: s =>
    if c = 92 then
      match decodeEscape d with
      | some x => x :: decode s
      | none => c :: decode (d :: s)
    else c :: decode (d :: s)

/-- Upper-case hexadecimal digit (`%X`). -/
def upperHex (n : Nat) : UInt8 := if n < 10 then UInt8.ofNat (48 + n) else UInt8.ofNat (55 + n)
/-- The switch of `Json5EscapeDataWriter` (json.c:1004-1042). -/
def json5Char (c : UInt8) : Bytes :=
  if c = 0 then [92, 48]
  else if c = 34 ∨ c = 92 then [92, c]
  else if c = 8 then [92, 98]
  else if c = 12 then [92, 102]
  else if c = 10 then [92, 110]
  else if c = 13 then [92, 114]
  else if c = 9 then [92, 116]
  else if 32 ≤ c ∧ c ≤ 126 then [c]
  else [92, 120, upperHex (c.toNat / 16), upperHex (c.toNat % 16)]
/-- `Json5EscapeData` (json.c:994-1055). -/
def json5 : Bytes → Bytes
  | [] => []
  | c :: s => json5Char c ++ json5 s

/-! ## Objects -/

/-- `JsonElementIndexInParentObject` (json.c:1164-1174): the first child whose name equals the key (`StringSafeCompare`, C66). -/
def indexOf (kids : List Elem) (k : Bytes) : Option Nat := kids.findIdx? fun e => e.name == some k
/-- `JsonObjectRemoveKey` (json.c:1176-1190). -/
def removeKey (kids : List Elem) (k : Bytes) : List Elem × Bool :=
  match indexOf kids k with
  | some i => (kids.eraseIdx i, true)
  | none => (kids, false)
/-- `JsonObjectAppendElement` (json.c:1120-1135). -/
def appendElement (kids : List Elem) (k : Bytes) (e : Elem) : List Elem := (removeKey kids k).1 ++ [e.setName (some k)]
/-- `SeqLookup` with `JsonElementHasProperty` (json.c:1140-1151, sequence.c:126-137): an unnamed child met on the way violates the assertion. -/
def lookup (k : Bytes) : List Elem → Option (Option Elem)
  | [] => some none
  | e :: es =>
    match e.name with
    | none => none
    | some n => if Str.cmpSign id k n = 0 then some (some e) else lookup k es
/-- `JsonObjectGet` (json.c:1293-1302) on the children of an object. -/
def get (kids : List Elem) (k : Bytes) : Option (Option Elem) := lookup k kids
/-- `JsonObjectDetachKey` (json.c:1192-1211): remaining children, detached element. -/
def detachKey (kids : List Elem) (k : Bytes) : Option (List Elem × Option Elem) :=
  match indexOf kids k with
  | some i => (lookup k kids).map fun d => (kids.eraseIdx i, d)
  | none => some (kids, none)

/-! ## Copy, comparison, merge -/

/-- Reading a text with `StringToDouble` and printing the number as `JsonRealCreate` does: the C library's affair, so any function here. -/
abbrev RealText := Bytes → Bytes

/-- `JsonPrimitiveCopy` (json.c:208-235): `JsonIntegerCreate` takes an `int`. -/
def primCopy (rt : RealText) (t : PType) (v : Bytes) : Option Elem :=
  match t with
  | .bool => some (boolCreate (v == litTrue))
  | .integer => (getAsInteger v).map fun x => integerCreate (Str.toInt x)
  | .null => some nullCreate
  | .real => some (.prim none .real (rt v))
  | .string => some (stringCreate v)

mutual
/-- `JsonCopy` (json.c:237-249), `JsonContainerCopy` (186-204). -/
def copy (rt : RealText) : Elem → Option Elem
  | .prim _ t v => primCopy rt t v
  | .cont _ .array ks => (copyArray rt ks []).map (.cont none .array)
  | .cont _ .object ks => (copyObject rt ks []).map (.cont none .object)
/-- The loop of `JsonArrayCopy` (json.c:150-166). -/
def copyArray (rt : RealText) : List Elem → List Elem → Option (List Elem)
  | [], acc => some acc
  | e :: es, acc => (copy rt e).bind fun e' => copyArray rt es (acc ++ [e'])
/-- The loop of `JsonObjectCopy` (json.c:168-185); a child without a name violates the assertion on the key. -/
def copyObject (rt : RealText) : List Elem → List Elem → Option (List Elem)
  | [], acc => some acc
  | e :: es, acc => e.name.bind fun k => (copy rt e).bind fun e' => copyObject rt es (appendElement acc k e')
end

/-- `type_a - type_b` for element types and container types (json.h:51-60): PRIMITIVE is CONTAINER + 1, ARRAY is OBJECT + 1. -/
def typeRank : CType → Int
  | .object => 0
  | .array => 1

/-- `int ret = JsonLength(a) - JsonLength(b)` (json.c:261, 295). -/
def lengthDiff (a b : Nat) : Int := Str.toInt ((a : Int) - b)

/-- `strcmp` (C library): the right sign, and a magnitude that depends on the platform. -/
def strcmp (mag : Bytes → Bytes → Nat) (a b : Bytes) : Int := Str.libc mag (Str.cmpSign id a b) a b

mutual
/-- `JsonCompare` (json.c:360-385), `JsonContainerCompare` (330-357). -/
def compare (mag : Bytes → Bytes → Nat) : Elem → Elem → Option Int
  | .prim _ _ v, .prim _ _ w => some (strcmp mag v w)
  | .cont .., .prim .. => some (-1)
  | .prim .., .cont .. => some 1
  | .cont _ t ks, .cont _ u ls =>
    if t ≠ u then some (typeRank t - typeRank u)
    else if lengthDiff ks.length ls.length ≠ 0 then some (lengthDiff ks.length ls.length)
    else match t with
      | .array => compareArray mag ks
      | .object => compareObject mag ks
/-- The loop of `JsonArrayCompare` (json.c:267-282): BOTH iterators run over `a`, so each child is compared with itself. -/
def compareArray (mag : Bytes → Bytes → Nat) : List Elem → Option Int
  | [] => some 0
  | e :: es => (compare mag e e).bind fun r => if r ≠ 0 then some r else compareArray mag es
/-- The loop of `JsonObjectCompare` (json.c:301-324): BOTH iterators run over `a`. -/
def compareObject (mag : Bytes → Bytes → Nat) : List Elem → Option Int
  | [] => some 0
  | e :: es => e.name.bind fun k =>
    if strcmp mag k k ≠ 0 then some (strcmp mag k k)
    else (compare mag e e).bind fun r => if r ≠ 0 then some r else compareObject mag es
end

/-- `JsonArrayMergeArray` (json.c:432-452). -/
def mergeArrays (rt : RealText) (a b : List Elem) : Option Elem :=
  (copyArray rt a []).bind fun r => (copyArray rt b r).map (.cont none .array)
/-- The loop of `JsonObjectMergeArray` (json.c:457-463): keys "0", "1", ... -/
def mergeArrayLoop (rt : RealText) : Nat → List Elem → List Elem → Option (List Elem)
  | _, [], acc => some acc
  | i, e :: es, acc => (copy rt e).bind fun e' => mergeArrayLoop rt (i + 1) es (appendElement acc (intText i) e')
/-- `JsonMerge` (json.c:493-530), `JsonObjectMergeArray` (448-466), `JsonObjectMergeObject` (468-486). Both arguments must be containers. -/
def merge (rt : RealText) : Elem → Elem → Option Elem
  | .cont _ .array a, .cont _ .array b => mergeArrays rt a b
  | .cont _ .array a, .cont _ .object b => (copyObject rt b []).bind fun r => (mergeArrayLoop rt 0 a r).map (.cont none .object)
  | .cont _ .object a, .cont _ .array b => (copyObject rt a []).bind fun r => (mergeArrayLoop rt 0 b r).map (.cont none .object)
  | .cont _ .object a, .cont _ .object b => (copyObject rt a []).bind fun r => (copyObject rt b r).map (.cont none .object)
  | _, _ => none

/-! ## Writing -/

/-- `PrintIndent` (json.c:1557-1565). -/
def indent (n : Nat) : Bytes := List.replicate (n * 2) 32
/-- `JsonPrimitiveWrite` (json.c:1567-1591) without the indentation. -/
def primText (t : PType) (v : Bytes) : Bytes := if t = .string then [34] ++ encode v ++ [34] else v

/-- `JsonElementPropertyCompare` (json.c:1646-1657) through names that are not NULL. -/
def nameCompare (a b : Bytes × Bytes × Elem) : Int := Str.cmpSign id a.1 b.1

/-- `JsonSort` (json.c:805-815) of children paired with their names and texts, run in the model of `SeqSort`. -/
def sortKids (l : List (Bytes × Bytes × Elem)) : Option (List (Bytes × Bytes × Elem)) :=
  (Seqn.sort nameCompare { hasDestroy := true, data := l.map some ++ [none], length := l.length, capacity := l.length + 1 }).bind fun s =>
    CMem.getRange s.data 0 s.length

/-- The loop of `JsonArrayWrite` (json.c:1617-1643) over the texts of the children. -/
def arrayLines (lvl : Nat) : List Bytes → Bytes
  | [] => []
  | [t] => indent (lvl + 1) ++ t ++ [10]
  | t :: ts => indent (lvl + 1) ++ t ++ [44, 10] ++ arrayLines lvl ts
/-- The loop of `JsonObjectWrite` (json.c:1701-1730) over names and texts. -/
def objectLines (lvl : Nat) : List (Bytes × Bytes) → Bytes
  | [] => []
  | [(k, t)] => indent (lvl + 1) ++ ([34] ++ k ++ [34, 58, 32]) ++ t ++ [10]
  | (k, t) :: ts => indent (lvl + 1) ++ ([34] ++ k ++ [34, 58, 32]) ++ t ++ [44, 10] ++ objectLines lvl ts
/-- The loop of `JsonArrayWriteCompact` (json.c:1793-1818). -/
def arrayCompact : List Bytes → Bytes
  | [] => []
  | [t] => t
  | t :: ts => t ++ [44] ++ arrayCompact ts
/-- The loop of `JsonObjectWriteCompact` (json.c:1839-1863). -/
def objectCompact : List (Bytes × Bytes) → Bytes
  | [] => []
  | [(k, t)] => ([34] ++ k ++ [34, 58]) ++ t
  | (k, t) :: ts => ([34] ++ k ++ [34, 58]) ++ t ++ [44] ++ objectCompact ts

mutual
/-- `JsonWrite` (json.c:1754-1775) without the initial indentation of a primitive, `JsonContainerWrite` (1742-1758), `JsonArrayWrite` (1596-1647),
`JsonObjectWrite` (1685-1740): the text, and the element after its objects have been sorted in place. The children are written before the sort
here and after it in the code; a child's text does not depend on its position. -/
def write (lvl : Nat) : Elem → Option (Bytes × Elem)
  | .prim n t v => some (primText t v, .prim n t v)
  | .cont n .array ks => (writeKids (lvl + 1) ks).bind fun r =>
    some (if r.isEmpty then [91, 93] else [91, 10] ++ arrayLines lvl (r.map Prod.fst) ++ indent lvl ++ [93], .cont n .array (r.map Prod.snd))
  | .cont n .object ks => (writeNamed (lvl + 1) ks).bind fun r => (sortKids r).bind fun r =>
    some ([123, 10] ++ objectLines lvl (r.map fun x => (x.1, x.2.1)) ++ indent lvl ++ [125], .cont n .object (r.map fun x => x.2.2))
def writeKids (lvl : Nat) : List Elem → Option (List (Bytes × Elem))
  | [] => some []
  | e :: es => (write lvl e).bind fun x => (writeKids lvl es).map (x :: ·)
def writeNamed (lvl : Nat) : List Elem → Option (List (Bytes × Bytes × Elem))
  | [] => some []
  | e :: es => e.name.bind fun k => (write lvl e).bind fun x => (writeNamed lvl es).map ((k, x.1, x.2) :: ·)
end

/-- `JsonWrite` (json.c:1754-1775). -/
def jsonWrite (lvl : Nat) (e : Elem) : Option (Bytes × Elem) :=
  match e with
  | .prim n t v => some (indent lvl ++ primText t v, .prim n t v)
  | e => write lvl e

mutual
/-- `JsonWriteCompact` (json.c:1885-1903), `JsonContainerWriteCompact` (1868-1883), `JsonArrayWriteCompact` (1783-1820), `JsonObjectWriteCompact`
(1822-1866). -/
def writeCompact : Elem → Option (Bytes × Elem)
  | .prim n t v => some (primText t v, .prim n t v)
  | .cont n .array ks => (writeCompactKids ks).bind fun r =>
    some (if r.isEmpty then [91, 93] else [91] ++ arrayCompact (r.map Prod.fst) ++ [93], .cont n .array (r.map Prod.snd))
  | .cont n .object ks => (writeCompactNamed ks).bind fun r => (sortKids r).bind fun r =>
    some ([123] ++ objectCompact (r.map fun x => (x.1, x.2.1)) ++ [125], .cont n .object (r.map fun x => x.2.2))
def writeCompactKids : List Elem → Option (List (Bytes × Elem))
  | [] => some []
  | e :: es => (writeCompact e).bind fun x => (writeCompactKids es).map (x :: ·)
def writeCompactNamed : List Elem → Option (List (Bytes × Bytes × Elem))
  | [] => some []
  | e :: es => e.name.bind fun k => (writeCompact e).bind fun x => (writeCompactNamed es).map ((k, x.1, x.2) :: ·)
end

/-! ## Parsing

The text is the string `s`; `*data` is the position `p` in it; reading at `p` gives `(s ++ [0])[p]?`.  A parser that succeeds leaves `*data` on
the last character of what it parsed. -/

/-- `JsonParseError` (json.h:83-125). -/
inductive Err where
  | strStart | strEnd | numNegative | numPositive | numDuplicateZero | numNoDigit | numMultipleDots | numExpDuplicate | numExpDigit
  | numFollowZero | numBadSymbol | numDigitEnd | arrayStart | arrayEnd | arrayComma | badSymbol | objectStart | objectEnd | objectColon
  | objectComma | arrayLval | objectLval | openLval | invalidStart | noData | truncated | noSuchFile
  deriving DecidableEq, Repr

abbrev P (α : Type) := Option (Except Err (α × Nat))

/-- `**data` and the like. -/
def rd (s : Bytes) (p : Nat) : Option UInt8 := (s ++ [0])[p]?

/-- `if (err != JSON_PARSE_OK) return err;` and go on. -/
def andThen {α β : Type} (x : Option (Except Err (α × Nat))) (f : α → Nat → Option (Except Err β)) : Option (Except Err β) :=
  match x with
  | none => none
  | some (.error e) => some (.error e)
  | some (.ok (a, q)) => f a q

/-- `IsWhitespace` (json.c:1541-1544). -/
def isWs (c : UInt8) : Bool := c == 32 || c == 9 || c == 10 || c == 13
/-- `IsSeparator` (json.c:1546-1549). -/
def isSep (c : UInt8) : Bool := isWs c || c == 44 || c == 93 || c == 125
/-- `IsDigit` (json.c:1551-1555): 1 to 9. -/
def isDigit19 (c : UInt8) : Bool := 49 ≤ c && c ≤ 57

/-- The switch on an escape sequence (json.c:2056-2091): what is written for the backslash and the character `d`. -/
def unescape (d : UInt8) : Bytes :=
  if d = 92 ∨ d = 34 ∨ d = 47 then [d]
  else if d = 98 then [8]
  else if d = 102 then [12]
  else if d = 110 then [10]
  else if d = 114 then [13]
  else if d = 116 then [9]
  else [92, d]

/-- The loop of `JsonParseAsString` (json.c:2045-2098) at position `p`; `rest` is the string from there on. After a backslash right before the
terminator the loop steps over the terminator and goes on reading: `none`. -/
def strLoop : (rest : Bytes) → (p : Nat) → (acc : Bytes) → P Bytes
  | [], _, _ => some (.error .strEnd)
  | c :: rest, p, acc =>
    if c = 34 then some (.ok (acc, p))
    else if c = 92 then
      match rest with
      | [] => none
      | d :: rest => strLoop rest (p + 2) (acc ++ unescape d)
    else strLoop rest (p + 1) (acc ++ [c])

/-- `JsonParseAsString` (json.c:2028-2103), called on a double quote at position `p` of the string. -/
def stringAt (s : Bytes) (p : Nat) : P Bytes := strLoop (s.drop (p + 1)) (p + 1) []

/-- The local variables of `JsonParseAsNumber` (json.c:2112-2118). -/
structure Num where
  zero : Bool := false
  dot : Bool := false
  exp : Bool := false
  prev : UInt8 := 0
  text : Bytes := []

/-- The switch of `JsonParseAsNumber` (json.c:2123-2205) and `WriterWriteChar` (2207), `prev_char = **data` (2121). -/
def numStep (n : Num) (c : UInt8) : Except Err Num :=
  let n' := { n with prev := c, text := n.text ++ [c] }
  if c = 45 then
    if n.prev ≠ 0 ∧ n.prev ≠ 101 ∧ n.prev ≠ 69 then .error .numNegative else .ok n'
  else if c = 43 then
    if n.prev ≠ 101 ∧ n.prev ≠ 69 then .error .numPositive else .ok n'
  else if c = 48 then
    if n.zero && !n.dot && !n.exp then .error .numDuplicateZero
    else .ok (if n.prev = 0 then { n' with zero := true } else n')
  else if c = 46 then
    if n.dot then .error .numMultipleDots
    else if n.prev ≠ 48 ∧ isDigit19 n.prev = false then .error .numNoDigit
    else .ok { n' with dot := true }
  else if c = 101 ∨ c = 69 then
    if n.exp then .error .numExpDuplicate
    else if isDigit19 n.prev = false ∧ n.prev ≠ 48 then .error .numExpDigit
    else .ok { n' with exp := true }
  else if n.zero && !n.dot && !n.exp then .error .numFollowZero
  else if isDigit19 c = false then .error .numBadSymbol
  else .ok n'

/-- After the loop (json.c:2210-2231). -/
def numEnd (n : Num) (p : Nat) : P Elem :=
  if n.prev ≠ 48 ∧ isDigit19 n.prev = false then some (.error .numDigitEnd)
  else some (.ok (.prim none (if n.dot then .real else .integer) n.text, p - 1))

/-- `JsonParseAsNumber` (json.c:2105-2231) at position `p`; `rest` is the string from there on. -/
def numLoop : (rest : Bytes) → (p : Nat) → Num → P Elem
  | [], p, n => numEnd n p
  | c :: rest, p, n =>
    if isSep c then numEnd n p
    else match numStep n c with
      | .error e => some (.error e)
      | .ok n => numLoop rest (p + 1) n

/-- `StringStartsWith` (string_lib.c:1492-1510) at `p`, then the test of the next character (json.c:1921-1925). -/
def literalAt (s : Bytes) (p : Nat) (lit : Bytes) : Option Bool :=
  if p ≤ s.length then
    if (s.drop p).take lit.length = lit then
      (rd s (p + lit.length)).map fun c => isSep c || c == 0
    else some false
  else none

/-- `JsonParseAsBoolean` (json.c:1915-1939) and `JsonParseAsNull` (1942-1957), as used one after the other; nothing recognised: BAD_SYMBOL
(json.c:2274, 2421, 2689). If the text starts with "true" the test for "false" is skipped; it could not succeed. -/
def wordAt (s : Bytes) (p : Nat) : P Elem :=
  (literalAt s p litTrue).bind fun t => if t then some (.ok (boolCreate true, p + 3)) else
  (literalAt s p litFalse).bind fun f => if f then some (.ok (boolCreate false, p + 4)) else
  (literalAt s p litNull).bind fun n => if n then some (.ok (nullCreate, p + 3)) else some (.error .badSymbol)

/-- Numbers, booleans and null at `p`, whose character is `c` (json.c:2253-2274, 2382-2422, 2647-2690; no lookup function). -/
def scalarAt (s : Bytes) (p : Nat) (c : UInt8) : P Elem :=
  if c = 45 ∨ c = 48 ∨ isDigit19 c = true then numLoop (s.drop p) p {} else wordAt s p

/-- A string value: parsed, then decoded once more (json.c:2242-2250, 2307-2319, 2490-2507). -/
def stringValueAt (s : Bytes) (p : Nat) : P Elem :=
  andThen (stringAt s p) fun v q => some (.ok (stringCreate (decode v), q))

/-- `wc` (json.c:2436-2440). -/
def isWord (c : UInt8) : Bool := Str.isalnum c || c == 95

/-- The two loops of `unquoted_key_with_colon` (json.c:2450-2457): skip while `f` holds (never on the terminator). -/
def skip (f : UInt8 → Bool) (s : Bytes) (p : Nat) : Nat := p + ((s.drop p).takeWhile f).length

/-- `unquoted_key_with_colon` (json.c:2442-2463) at `p ≤ strlen`: the position of the colon. -/
def unquotedKey (s : Bytes) (p : Nat) : Option Nat :=
  match s[p]? with
  | none => none
  | some c =>
    if isWord c then
      let i := skip isWs s (skip (fun c => c == 45 || isWord c) s (p + 1))
      if s[i]? = some 58 then some i else none
    else none

/-- `while (IsWhitespace(*(ws - 1))) ws -= 1` (json.c:2631-2635). -/
def backWs (s : Bytes) : Nat → Nat
  | 0 => 0
  | i + 1 => if (s[i]?).any isWs then backWs s i else i + 1

mutual
/-- The value starting at `p` with character `c`, inside an array (json.c:2303-2360, 2381-2422) or an object (2489-2507, 2548-2593, 2645-2690). -/
def valueAt : Nat → Bytes → Nat → UInt8 → P Elem
  | 0, _, _, _ => none
  | fuel + 1, s, p, c =>
    if c = 34 then stringValueAt s p
    else if c = 91 then arrLoop fuel s (p + 1) 91 []
    else if c = 123 then objLoop fuel s (p + 1) 123 none []
    else scalarAt s p c

/-- The loop of `JsonParseAsArray` (json.c:2301-2434) at position `p`. -/
def arrLoop : Nat → Bytes → Nat → UInt8 → List Elem → P Elem
  | 0, _, _, _, _ => none
  | fuel + 1, s, p, prev, kids =>
    match rd s p with
    | none => none
    | some c =>
      if c = 0 then some (.error .arrayEnd)
      else if isWs c then arrLoop fuel s (p + 1) prev kids
      else if c = 44 then
        if prev = 44 ∨ prev = 91 then some (.error .arrayComma) else arrLoop fuel s (p + 1) c kids
      else if c = 93 then some (.ok (.cont none .array kids, p))
      else if (c = 91 ∨ c = 123) ∧ prev ≠ 91 ∧ prev ≠ 44 then some (.error .arrayStart)
      else andThen (valueAt fuel s p c) fun e q =>
        (rd s q).bind fun prev => arrLoop fuel s (q + 1) prev (kids ++ [e])

/-- The loop of `JsonParseAsObject` (json.c:2482-2701) at position `p`, with `property_name`. -/
def objLoop : Nat → Bytes → Nat → UInt8 → Option Bytes → List Elem → P Elem
  | 0, _, _, _, _, _ => none
  | fuel + 1, s, p, prev, name, kids =>
    match rd s p with
    | none => none
    | some c =>
      if c = 0 then some (.error .objectEnd)
      else if isWs c then objLoop fuel s (p + 1) prev name kids
      else if c = 58 then
        if name = none ∨ prev = 58 ∨ prev = 44 then some (.error .objectColon) else objLoop fuel s (p + 1) c name kids
      else if c = 44 then
        if name ≠ none ∨ prev = 58 ∨ prev = 44 then some (.error .objectComma) else objLoop fuel s (p + 1) c name kids
      else if c = 125 then
        if name ≠ none then some (.error .openLval) else some (.ok (.cont none .object kids, p))
      else match name with
        | some k =>
          andThen (valueAt fuel s p c) fun e q =>
            (rd s q).bind fun prev => objLoop fuel s (q + 1) prev none (appendElement kids k e)
        | none =>
          if c = 34 then
            andThen (stringAt s p) fun k q => (rd s q).bind fun prev => objLoop fuel s (q + 1) prev (some k) kids
          else if c = 91 then some (.error .arrayLval)
          else if c = 123 then some (.error .objectLval)
          else match unquotedKey s p with
            | some colon => objLoop fuel s (colon + 1) 58 (some ((s.drop p).take (backWs s colon - p))) kids
            | none => some (.error .badSymbol)
end

/-- The loop of `JsonParseWithLookup` (json.c:2719-2741) at position `p` of `s`, without a lookup function, and `JsonParseAsPrimitive` (2233-2276);
`rest` is the string from there on. -/
def parseLoop (s : Bytes) : (rest : Bytes) → (p : Nat) → P Elem
  | [], _ => some (.error .noData)
  | c :: rest, p =>
    if c = 123 ∨ c = 91 then valueAt (2 * s.length + 1) s p c
    else if isWs c then parseLoop s rest (p + 1)
    else valueAt (2 * s.length + 1) s p c

/-- `JsonParse` (json.c:2703-2706): an error, or the element and the final position of `*data`. -/
def parse (s : Bytes) : P Elem := parseLoop s s 0

end Json
