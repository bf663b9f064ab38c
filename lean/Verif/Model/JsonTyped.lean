import Verif.Model.JsonApi
/-! # Model of the typed members of JSON objects and arrays (libutils/json.c)

`none`: a failed assertion (with assertions compiled out: reading the wrong member of a union). An inner `none` is NULL. -/
namespace Json

/-- The elements the typed append functions take or make (json.c:1057-1118, 1314-1361). -/
inductive TVal where
  | string (s : Bytes)
  | int (v : Int)
  | int64 (v : Int)
  | bool (b : Bool)
  | real (x : Option (Bool × Nat))
  | null
  | array (e : Elem)
  | object (e : Elem)

/-- The element appended: `JsonStringCreate` … in `JsonObjectAppendString` (json.c:1057-1062), `JsonObjectAppendInteger` (json.c:1064-1069),
`JsonObjectAppendInteger64` (json.c:1071-1076), `JsonObjectAppendBool` (json.c:1078-1083), `JsonObjectAppendReal` (json.c:1085-1090),
`JsonObjectAppendNull` (json.c:1092-1096), `JsonObjectAppendArray` (json.c:1098-1106), `JsonObjectAppendObject` (json.c:1108-1118),
and in `JsonArrayAppendString` (json.c:1314-1318), `JsonArrayAppendBool` (json.c:1320-1324), `JsonArrayAppendInteger` (json.c:1326-1330),
`JsonArrayAppendReal` (json.c:1332-1336), `JsonArrayAppendNull` (json.c:1338-1342), `JsonArrayAppendArray` (json.c:1344-1352),
`JsonArrayAppendObject` (json.c:1354-1361). -/
def TVal.element : TVal → Option Elem
  | .string s => some (stringCreate s)
  | .int v => some (integerCreate v)
  | .int64 v => some (integerCreate64 v)
  | .bool b => some (boolCreate b)
  | .real x => some (realCreate x)
  | .null => some nullCreate
  | .array e => match e with | .cont _ .array _ => some e | _ => none
  | .object e => match e with | .cont _ .object _ => some e | _ => none

/-- `JsonObjectAppend…` (json.c:1057-1118). -/
def objAppend (kids : List Elem) (k : Bytes) (v : TVal) : Option (List Elem) := v.element.map fun e => appendElement kids k e

/-- `JsonArrayAppend…` (json.c:1314-1361). -/
def arrAppendTyped (a : List Elem) (v : TVal) : Option (List Elem) := v.element.map fun e => a ++ [e]

/-- The text of a primitive child; the assertion that it is one. -/
def textOf : Elem → Option Bytes
  | .prim _ _ v => some v
  | .cont .. => none

/-- `JsonObjectGetAsString` (json.c:1213-1231). -/
def objGetString (kids : List Elem) (k : Bytes) : Option (Option Bytes) :=
  (lookup k kids).bind fun c =>
    match c with
    | some c => (textOf c).map some
    | none => some none

/-- `JsonObjectGetAsBool` (json.c:1233-1249). -/
def objGetBool (kids : List Elem) (k : Bytes) : Option Bool :=
  (get kids k).bind fun c =>
    match c with
    | some c => getAsBool c
    | none => some false

/-- A child that must be a container of a type. -/
def childOf (t : CType) : Option Elem → Option (Option Elem)
  | none => some none
  | some (.cont n u ks) => if u = t then some (some (.cont n u ks)) else none
  | some (.prim ..) => none

/-- `JsonObjectGetAsObject` (json.c:1251-1270). -/
def objGetObject (kids : List Elem) (k : Bytes) : Option (Option Elem) := (lookup k kids).bind (childOf .object)

/-- `JsonObjectGetAsArray` (json.c:1272-1291). -/
def objGetArray (kids : List Elem) (k : Bytes) : Option (Option Elem) := (lookup k kids).bind (childOf .array)

/-- `JsonArrayGetAsString` (json.c:1404-1421): the index must be in range and the child a string. -/
def arrGetString (a : List Elem) (i : Nat) : Option (Option Bytes) :=
  (a[i]?).bind fun c =>
    match c with
    | .prim _ .string v => some (some v)
    | _ => none

/-- `JsonArrayGetAsObject` (json.c:1423-1440). -/
def arrGetObject (a : List Elem) (i : Nat) : Option (Option Elem) := (a[i]?).bind fun c => childOf .object (some c)

/-- `JsonPrimitiveTypeToString` (json.c:79-94); `none` is `UnexpectedError`, followed by "(null)". -/
def typeName : PType → Option String
  | .string => some "string"
  | .real => some "number"
  | .integer => some "number"
  | .bool => some "boolean"
  | .null => none

end Json
