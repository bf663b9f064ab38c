import Verif.Spec.Json
/-! # Specification: a record of typed members -/
namespace JsonTypedSpec
open Json (Bytes Elem)

/-- A typed member, as the caller sees it: what it is and what was put in. -/
inductive Member where
  /-- a string -/
  | string (s : Bytes)
  /-- a number or null, with the text it is written as -/
  | other (text : Bytes)
  | bool (b : Bool)
  | array (items : List Elem)
  | object (members : List Elem)

/-- A record: the last member stored under each key. -/
abbrev Record := Bytes → Option Member

def Record.put (r : Record) (k : Bytes) (m : Option Member) : Record := fun k' => if k' = k then m else r k'

/-- What reading a member as text gives; `none`: not allowed. -/
def asText : Option Member → Option (Option Bytes)
  | none => some none
  | some (.string s) => some (some s)
  | some (.other t) => some (some t)
  | some (.bool b) => some (some (if b then [116, 114, 117, 101] else [102, 97, 108, 115, 101]))
  | some (.array _) => none
  | some (.object _) => none

/-- Reading as a boolean: an absent member is false; anything but a boolean is not allowed. -/
def asBool : Option Member → Option Bool
  | none => some false
  | some (.bool b) => some b
  | some _ => none

/-- Reading as a container: its children. -/
def asObject : Option Member → Option (Option (List Elem))
  | none => some none
  | some (.object ks) => some (some ks)
  | some _ => none

def asArray : Option Member → Option (Option (List Elem))
  | none => some none
  | some (.array ks) => some (some ks)
  | some _ => none

end JsonTypedSpec
