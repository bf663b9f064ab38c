import Verif.Model.Map
import Verif.Model.JsonApi
/-! # Model of the JSON functions of libutils/set.c -/
namespace SetJson
open CMap Json

abbrev Bytes := List UInt8

/-- The loop and result of `StringSetToJson` (set.c:188-202): an array of strings in iteration order. -/
def setToJson (s : Map Bytes Bytes) : Option Elem := do
  let l ← setElements s
  some (.cont none .array (l.map stringCreate))

/-- `VisitJsonArrayFirst` (set.c:204-212). The state is the set; `none` once something undefined happened. -/
def visitArray : Visitor (Option (Map Bytes Bytes)) := fun s _ =>
  match s with
  | none => (none, false)
  | some m => match mapSize m with
    | none => (none, false)
    | some n => (some m, n == 0)

/-- `AddArrayItemToStringSet` (set.c:214-224). -/
def visitItem (f : Fns Bytes) (dbl : Bytes → Bytes) : Visitor (Option (Map Bytes Bytes)) := fun s e =>
  match s with
  | none => (none, false)
  | some m => match primToString dbl e with
    | none => (none, false)
    | some none => (some m, false)
    | some (some t) => match setAdd f m t with
      | none => (none, false)
      | some (m, _) => (some m, true)

/-- `JsonErrorVisitor` (json.c:2845-2848). -/
def visitError : Visitor (Option (Map Bytes Bytes)) := fun s _ => (s, false)

/-- `JsonArrayToStringSet` (set.c:226-247): `some none` is NULL. -/
def arrayToSet (f : Fns Bytes) (dbl : Bytes → Bytes) (e : Elem) : Option (Option (Map Bytes Bytes)) :=
  match e with
  | .cont n .array ks =>
    match walk (some visitError) (some visitArray) (some (visitItem f dbl)) (some mapNew) (.cont n .array ks) with
    | (none, _) => none
    | (some m, true) => some (some m)
    | (some _, false) => some none
  | _ => some none

end SetJson
