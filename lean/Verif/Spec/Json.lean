import Verif.Model.Json
import Verif.Spec.Strings
/-! # Specification vocabulary for JSON: documents, and the texts that denote them (RFC 8259) -/
namespace JsonSpec
open Json (Bytes Elem)

/-- A JSON document: an object is a finite map, given as a function from keys. Numbers are their texts, with the library's division into integers
and reals. -/
inductive Doc where
  | null
  | bool (b : Bool)
  | integer (text : Bytes)
  | real (text : Bytes)
  | string (s : Bytes)
  | array (items : List Doc)
  | object (members : Bytes → Option Doc)

mutual
/-- The document an element stands for, read through the API: arrays in order, objects by looking keys up. -/
def doc : Elem → Doc
  | .prim _ .string v => .string v
  | .prim _ .integer v => .integer v
  | .prim _ .real v => .real v
  | .prim _ .bool v => .bool (v == [116, 114, 117, 101])
  | .prim _ .null _ => .null
  | .cont _ .array ks => .array (docs ks)
  | .cont _ .object ks => .object (members ks)
def docs : List Elem → List Doc
  | [] => []
  | e :: es => doc e :: docs es
def members : List Elem → Bytes → Option Doc
  | [] => fun _ => none
  | e :: es => fun k => if e.name = some k then some (doc e) else members es k
end

/-- The keys of an object. -/
def keys (kids : List Elem) : List (Option Bytes) := kids.map Elem.name

/-! ## Texts -/

/-- Insignificant whitespace. -/
def Blank (w : Bytes) : Prop := ∀ c ∈ w, c = 32 ∨ c = 9 ∨ c = 10 ∨ c = 13
def Digits (w : Bytes) : Prop := w ≠ [] ∧ ∀ c ∈ w, 48 ≤ c ∧ c ≤ 57

/-- `int = zero / ( digit1-9 *DIGIT )` -/
def IntPart (w : Bytes) : Prop := w = [48] ∨ ∃ c ds, w = c :: ds ∧ 49 ≤ c ∧ c ≤ 57 ∧ ∀ d ∈ ds, 48 ≤ d ∧ d ≤ 57
/-- `[ minus ] int [ frac ]`: with `frac` when `real`. -/
def Mantissa (w : Bytes) (real : Bool) : Prop :=
  ∃ sg i f, w = sg ++ i ++ f ∧ (sg = [] ∨ sg = [45]) ∧ IntPart i ∧ (if real then ∃ ds, f = 46 :: ds ∧ Digits ds else f = [])
/-- `number = [ minus ] int [ frac ] [ exp ]` -/
def Number (w : Bytes) (real : Bool) : Prop :=
  ∃ m x, w = m ++ x ∧ Mantissa m real ∧
    (x = [] ∨ ∃ e sg ds, x = e :: (sg ++ ds) ∧ (e = 101 ∨ e = 69) ∧ (sg = [] ∨ sg = [43] ∨ sg = [45]) ∧ Digits ds)

/-- What the character after a backslash stands for. -/
def escapeOf : List (UInt8 × UInt8) := [(34, 34), (92, 92), (47, 47), (98, 8), (102, 12), (110, 10), (114, 13), (116, 9)]

/-- The text between the quotes of a string, and the string; `\uXXXX` is not included. -/
inductive Chars : Bytes → Bytes → Prop
  | nil : Chars [] []
  | plain {c : UInt8} {t s : Bytes} : c ≠ 0 → c ≠ 34 → c ≠ 92 → Chars t s → Chars (c :: t) (c :: s)
  | escape {d c : UInt8} {t s : Bytes} : (d, c) ∈ escapeOf → Chars t s → Chars (92 :: d :: t) (c :: s)

/-- The value of an upper-case hexadecimal digit. -/
def hexValue (c : UInt8) : Option Nat :=
  if 48 ≤ c.toNat ∧ c.toNat ≤ 57 then some (c.toNat - 48) else if 65 ≤ c.toNat ∧ c.toNat ≤ 70 then some (c.toNat - 55) else none

/-- The text between the double quotes of a JSON5 string and the bytes it denotes (https://spec.json5.org/#strings, ASCII part). With `strict`, the
rule that `\0` may not be followed by a decimal digit is included. -/
inductive Chars5 (strict : Bool) : Bytes → Bytes → Prop
  | nil : Chars5 strict [] []
  | plain {c : UInt8} {t s : Bytes} : 32 ≤ c.toNat → c.toNat ≤ 126 → c ≠ 34 → c ≠ 92 → Chars5 strict t s → Chars5 strict (c :: t) (c :: s)
  | escape {d c : UInt8} {t s : Bytes} : (d, c) ∈ [((34 : UInt8), (34 : UInt8)), (92, 92), (98, 8), (102, 12), (110, 10), (114, 13), (116, 9)] →
      Chars5 strict t s → Chars5 strict (92 :: d :: t) (c :: s)
  | zero {t s : Bytes} : (strict = true → ∀ c t', t = c :: t' → ¬ (48 ≤ c.toNat ∧ c.toNat ≤ 57)) → Chars5 strict t s → Chars5 strict (92 :: 48 :: t) (0 :: s)
  | hex {h l : UInt8} {a b : Nat} {t s : Bytes} : hexValue h = some a → hexValue l = some b → Chars5 strict t s →
      Chars5 strict (92 :: 120 :: h :: l :: t) (UInt8.ofNat (16 * a + b) :: s)

mutual
/-- `Value ok t d`: the text `t` (without surrounding blanks) denotes `d`; `ok` says which strings may occur as values. -/
inductive Value (ok : Bytes → Prop) : Bytes → Doc → Prop
  | null : Value ok [110, 117, 108, 108] .null
  | true : Value ok [116, 114, 117, 101] (.bool true)
  | false : Value ok [102, 97, 108, 115, 101] (.bool false)
  | integer {t : Bytes} : Number t false → Value ok t (.integer t)
  | real {t : Bytes} : Number t true → Value ok t (.real t)
  | string {t s : Bytes} : Chars t s → ok s → Value ok ([34] ++ t ++ [34]) (.string s)
  | emptyArray {w : Bytes} : Blank w → Value ok ([91] ++ w ++ [93]) (.array [])
  | array {t : Bytes} {ds : List Doc} : Items ok t ds → Value ok ([91] ++ t ++ [93]) (.array ds)
  | emptyObject {w : Bytes} : Blank w → Value ok ([123] ++ w ++ [125]) (.object fun _ => none)
  | object {t : Bytes} {ms : List (Bytes × Doc)} : Members ok t ms →
      Value ok ([123] ++ t ++ [125]) (.object fun k => (ms.reverse.find? fun x => x.1 = k).map Prod.snd)
/-- Comma-separated values. -/
inductive Items (ok : Bytes → Prop) : Bytes → List Doc → Prop
  | one {a t b : Bytes} {d : Doc} : Blank a → Value ok t d → Blank b → Items ok (a ++ t ++ b) [d]
  | more {a t b r : Bytes} {d : Doc} {ds : List Doc} : Blank a → Value ok t d → Blank b → Items ok r ds → Items ok (a ++ t ++ b ++ [44] ++ r) (d :: ds)
/-- Comma-separated `"key" : value`; of several members with the same key the last one counts. -/
inductive Members (ok : Bytes → Prop) : Bytes → List (Bytes × Doc) → Prop
  | one {a kt k b c t e : Bytes} {d : Doc} : Blank a → Chars kt k → Blank b → Blank c → Value ok t d → Blank e →
      Members ok (a ++ ([34] ++ kt ++ [34]) ++ b ++ [58] ++ c ++ t ++ e) [(k, d)]
  | more {a kt k b c t e r : Bytes} {d : Doc} {ms : List (Bytes × Doc)} : Blank a → Chars kt k → Blank b → Blank c → Value ok t d → Blank e →
      Members ok r ms → Members ok (a ++ ([34] ++ kt ++ [34]) ++ b ++ [58] ++ c ++ t ++ e ++ [44] ++ r) ((k, d) :: ms)
end

/-- `JSON-text = ws value ws` -/
def Text (ok : Bytes → Prop) (t : Bytes) (d : Doc) : Prop := ∃ a v b, t = a ++ v ++ b ∧ Blank a ∧ Value ok v d ∧ Blank b

/-- A string in which no backslash is followed by one of `" \ b f n r t`. -/
def NoEscapes (s : Bytes) : Prop := ∀ a d b, s = a ++ [92, d] ++ b → d ∉ ([34, 92, 98, 102, 110, 114, 116] : List UInt8)

/-! ## Elements -/

mutual
/-- An element as the API builds it: bool and null texts are the literals, the children of an object have distinct keys; and in addition: `okS`
of its string values, `okK` of its keys, `okI`, `okR` of the texts of its integers and reals. -/
def Valid (okS okK okI okR : Bytes → Prop) : Elem → Prop
  | .prim _ .string v => okS v
  | .prim _ .integer v => okI v
  | .prim _ .real v => okR v
  | .prim _ .bool v => v = [116, 114, 117, 101] ∨ v = [102, 97, 108, 115, 101]
  | .prim _ .null v => v = [110, 117, 108, 108]
  | .cont _ .array ks => ValidAll okS okK okI okR ks
  | .cont _ .object ks => ValidAll okS okK okI okR ks ∧ (keys ks).Nodup ∧ ∀ k ∈ keys ks, ∃ n, k = some n ∧ okK n
def ValidAll (okS okK okI okR : Bytes → Prop) : List Elem → Prop
  | [] => True
  | e :: es => Valid okS okK okI okR e ∧ ValidAll okS okK okI okR es
end

/-! ## Objects as maps -/

/-- Calls on an object. -/
inductive Op where
  | append (k : Bytes) (e : Elem)
  | remove (k : Bytes)
  | detach (k : Bytes)
  | get (k : Bytes)

/-- What a call returns. -/
inductive Res where
  | done
  | removed (found : Bool)
  | element (e : Option Elem)

abbrev Map := Bytes → Option Elem
def Map.set (m : Map) (k : Bytes) (v : Option Elem) : Map := fun k' => if k' = k then v else m k'

/-- A call on a map: the new map and the result. -/
def Op.onMap (m : Map) : Op → Map × Res
  | .append k e => (m.set k (some (e.setName (some k))), .done)
  | .remove k => (m.set k none, .removed (m k).isSome)
  | .detach k => (m.set k none, .element (m k))
  | .get k => (m, .element (m k))
/-- A history on a map. -/
def histOnMap (m : Map) : List Op → Map × List Res
  | [] => (m, [])
  | o :: os => ((histOnMap (o.onMap m).1 os).1, (o.onMap m).2 :: (histOnMap (o.onMap m).1 os).2)

/-- The same calls on an object of the model. -/
def Op.onObject (kids : List Elem) : Op → Option (List Elem × Res)
  | .append k e => some (Json.appendElement kids k e, .done)
  | .remove k => some ((Json.removeKey kids k).1, .removed (Json.removeKey kids k).2)
  | .detach k => (Json.detachKey kids k).map fun r => (r.1, .element r.2)
  | .get k => (Json.get kids k).map fun r => (kids, .element r)
def histOnObject (kids : List Elem) : List Op → Option (List Elem × List Res)
  | [] => some (kids, [])
  | o :: os => (o.onObject kids).bind fun r => (histOnObject r.1 os).map fun r' => (r'.1, r.2 :: r'.2)

/-! ## Comparison and merging -/

/-- Same text for two primitives; same kind and number of children for two containers. -/
def SameShape : Elem → Elem → Prop
  | .prim _ _ v, .prim _ _ w => v = w
  | .cont _ t ks, .cont _ u ls => t = u ∧ ks.length = ls.length
  | _, _ => False

/-- The number of children. -/
def count : Elem → Nat
  | .prim .. => 0
  | .cont _ _ ks => ks.length

/-- A list of documents as a map from the decimal texts of the indices, counted from `i`. -/
def indexed (i : Nat) : List Doc → Bytes → Option Doc
  | [], _ => none
  | d :: ds, k => if k = NumSpec.decimal i then some d else indexed (i + 1) ds k

/-- The document merging two containers should give: arrays are concatenated, objects are united with the second operand winning, and an array merged
with an object counts as an object with its indices as keys, which win. -/
def merged : Doc → Doc → Doc
  | .array xs, .array ys => .array (xs ++ ys)
  | .object f, .object g => .object fun k => (g k).or (f k)
  | .object f, .array ys => .object fun k => (indexed 0 ys k).or (f k)
  | .array xs, .object g => .object fun k => (indexed 0 xs k).or (g k)
  | d, _ => d

/-- The decimal text of an `int`. -/
def IsInt (v : Bytes) : Prop := ∃ x : Int, -2 ^ 31 ≤ x ∧ x < 2 ^ 31 ∧ v = NumSpec.decimalInt x

end JsonSpec
