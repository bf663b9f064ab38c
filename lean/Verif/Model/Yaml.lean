import Verif.Model.Json
/-! # Model of libutils/json-yaml.c (built with libyaml)

libyaml is its sequence of events; when it has ended, or met an error, every further call reports "no event". A scalar event has the fields that the code
looks at; its value is followed by a NUL byte in memory and may contain NUL bytes. `none`: `ProgrammingError`, undefined behaviour, or the end of the process
in `JsonCopy`. -/
namespace Yaml
open Json

/-- `event->data.scalar` (yaml.h). -/
structure Scalar where
  tag : Option Bytes
  value : Bytes
  plainImplicit : Bool
  quotedImplicit : Bool
deriving DecidableEq

/-- `yaml_event_t` (yaml.h): stream start, document start and end, and alias are the other events. -/
inductive Event where
  | scalar (s : Scalar)
  | seqStart
  | seqEnd
  | mapStart
  | mapEnd
  | streamEnd
  | none
  | other
deriving DecidableEq

/-- The C string in memory that starts with the value. -/
def cstr (v : Bytes) : Bytes := v.takeWhile (· ≠ 0)

/-- "tag:yaml.org,2002:null" etc. (yaml.h). -/
def nullTag : Bytes := [116, 97, 103, 58, 121, 97, 109, 108, 46, 111, 114, 103, 44, 50, 48, 48, 50, 58, 110, 117, 108, 108]
def boolTag : Bytes := [116, 97, 103, 58, 121, 97, 109, 108, 46, 111, 114, 103, 44, 50, 48, 48, 50, 58, 98, 111, 111, 108]
def strTag : Bytes := [116, 97, 103, 58, 121, 97, 109, 108, 46, 111, 114, 103, 44, 50, 48, 48, 50, 58, 115, 116, 114]
def intTag : Bytes := [116, 97, 103, 58, 121, 97, 109, 108, 46, 111, 114, 103, 44, 50, 48, 48, 50, 58, 105, 110, 116]
def floatTag : Bytes := [116, 97, 103, 58, 121, 97, 109, 108, 46, 111, 114, 103, 44, 50, 48, 48, 50, 58, 102, 108, 111, 97, 116]

/-- The words of json-yaml.c:68-70, those of 80-84, and those of 89-93. -/
def nulls : List Bytes := [[78, 85, 76, 76], [78, 117, 108, 108], [110, 117, 108, 108]]
def trues : List Bytes := [[89, 69, 83], [89, 101, 115], [121, 101, 115], [84, 82, 85, 69], [84, 114, 117, 101], [116, 114, 117, 101], [79, 78], [79, 110], [111, 110]]
def falses : List Bytes := [[78, 79], [78, 111], [110, 111], [70, 65, 76, 83, 69], [70, 97, 108, 115, 101], [102, 97, 108, 115, 101], [79, 70, 70], [79, 102, 102], [111, 102, 102]]

/-- `length == 1 && *value == c`. -/
def single (v : Bytes) (c : UInt8) : Bool := v.length == 1 && (v ++ [0]).head? == some c

/-- The rest of `JsonParseYamlScalarValue` (json-yaml.c:108-135): numbers, then strings (the tests for the timestamp and string tags give the same). -/
def numberOrString (s : Scalar) (tag : Bytes) : Option Elem :=
  if !s.quotedImplicit && (s.plainImplicit || tag == intTag || tag == floatTag) then
    match numLoop (cstr s.value) 0 {} with
    | none => none
    | some (.ok (e, _)) => some e
    | some (.error _) => some (stringCreate (cstr s.value))
  else some (stringCreate (cstr s.value))

/-- The test for booleans (json-yaml.c:75-106). -/
def boolOrMore (s : Scalar) (tag : Bytes) : Option Elem :=
  if !s.quotedImplicit && (s.plainImplicit || tag == boolTag) then
    if single s.value 89 || single s.value 121 || trues.contains (cstr s.value) then some (boolCreate true)
    else if single s.value 78 || single s.value 110 || falses.contains (cstr s.value) then some (boolCreate false)
    else numberOrString s tag
  else if !s.quotedImplicit && !s.plainImplicit && tag == boolTag then
    if s.value.length == 0 || single s.value 48 then some (boolCreate false) else some (boolCreate true)
  else numberOrString s tag

/-- `JsonParseYamlScalarValue` (json-yaml.c:49-135). -/
def scalarValue (s : Scalar) : Option Elem :=
  let tag := s.tag.getD strTag
  if (tag == nullTag || s.plainImplicit) && (single s.value 126 || s.value.length == 0 || nulls.contains (cstr s.value)) then some nullCreate
  else boolOrMore s tag

/-- `JsonParseYamlData` (json-yaml.c:137-329) on a container of type `t` with children `kids`; the children and the events left. A new
container is appended to its parent before it is filled; here it is filled first, which makes no difference as nothing looks at the parent meanwhile. The number bounds
the iterations. -/
def data : Nat → CType → List Elem → Option Bytes → List Event → Option (List Elem × List Event)
  | 0, _, _, _, _ => none
  | _ + 1, _, kids, _, [] => some (kids, [])
  | _ + 1, _, kids, _, .none :: evs => some (kids, evs)
  | _ + 1, _, kids, _, .streamEnd :: evs => some (kids, evs)
  | f + 1, t, kids, key, .other :: evs => data f t kids key evs
  | f + 1, .object, kids, none, .scalar s :: evs => data f .object kids (some (cstr s.value)) evs
  | f + 1, .object, kids, some k, .scalar s :: evs => (scalarValue s).bind fun e => data f .object (appendElement kids k e) none evs
  | f + 1, .array, kids, _, .scalar s :: evs => (scalarValue s).bind fun e => data f .array (kids ++ [e]) none evs
  | _ + 1, .object, _, none, .seqStart :: _ => none
  | f + 1, .object, kids, some k, .seqStart :: evs =>
    (data f .array [] none evs).bind fun r => data f .object (appendElement kids k (.cont none .array r.1)) none r.2
  | f + 1, .array, kids, _, .seqStart :: evs =>
    (data f .array [] none evs).bind fun r => data f .array (kids ++ [.cont none .array r.1]) none r.2
  | _ + 1, .object, _, none, .mapStart :: _ => none
  | f + 1, .object, kids, some k, .mapStart :: evs =>
    (data f .object [] none evs).bind fun r => data f .object (appendElement kids k (.cont none .object r.1)) none r.2
  | f + 1, .array, kids, _, .mapStart :: evs =>
    (data f .object [] none evs).bind fun r => data f .array (kids ++ [.cont none .object r.1]) none r.2
  | _ + 1, .array, kids, _, .seqEnd :: evs => some (kids, evs)
  | _ + 1, .object, _, _, .seqEnd :: _ => none
  | _ + 1, .object, kids, _, .mapEnd :: evs => some (kids, evs)
  | _ + 1, .array, _, _, .mapEnd :: _ => none

/-- `JsonParseYamlString` (json-yaml.c:332-356), when libyaml can be initialised: a copy of the first child of an array
filled from the events. Without a child `JsonAt` reads outside the array (an assertion in debug builds). -/
def parseString (rt : RealText) (evs : List Event) : Option Elem :=
  (data (evs.length + 1) .array [] none evs).bind fun r => r.1.head?.bind (copy rt)

end Yaml
