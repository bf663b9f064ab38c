import Verif.Spec.JsonLoose
/-! # All of RFC 8259

The grammar with `\u` escapes. `str t v` says which value the library is said to give to the text `t` between the quotes of a string, `key t k` the same for keys; the grammar itself
asks nothing of them. -/
namespace JsonSpec
open Json (Bytes)

/-- A hexadecimal digit. -/
abbrev IsHex (c : UInt8) : Prop := (48 ≤ c ∧ c ≤ 57) ∨ (65 ≤ c ∧ c ≤ 70) ∨ (97 ≤ c ∧ c ≤ 102)

/-- `*char` of RFC 8259, section 7, on bytes (whether they are UTF-8 is not asked). -/
inductive RfcChars : Bytes → Prop
  | nil : RfcChars []
  | plain {c : UInt8} {t : Bytes} : 32 ≤ c → c ≠ 34 → c ≠ 92 → RfcChars t → RfcChars (c :: t)
  | escape {d : UInt8} {t : Bytes} : d ∈ ([34, 92, 47, 98, 102, 110, 114, 116] : List UInt8) → RfcChars t → RfcChars (92 :: d :: t)
  | unicode {a b c d : UInt8} {t : Bytes} : IsHex a → IsHex b → IsHex c → IsHex d → RfcChars t → RfcChars (92 :: 117 :: a :: b :: c :: d :: t)

mutual
inductive RfcValue (str key : Bytes → Bytes → Prop) : Bytes → Doc → Prop
  | null : RfcValue str key [110, 117, 108, 108] .null
  | true : RfcValue str key [116, 114, 117, 101] (.bool true)
  | false : RfcValue str key [102, 97, 108, 115, 101] (.bool false)
  | integer {t : Bytes} : Number t false → RfcValue str key t (.integer t)
  | real {t : Bytes} : Number t true → RfcValue str key t (.real t)
  | string {t s : Bytes} : RfcChars t → str t s → RfcValue str key (34 :: (t ++ [34])) (.string s)
  | emptyArray {w : Bytes} : Blank w → RfcValue str key (91 :: (w ++ [93])) (.array [])
  | array {t : Bytes} {ds : List Doc} : RfcItems str key t ds → RfcValue str key (91 :: (t ++ [93])) (.array ds)
  | emptyObject {w : Bytes} : Blank w → RfcValue str key (123 :: (w ++ [125])) (.object fun _ => none)
  | object {t : Bytes} {ms : List (Bytes × Doc)} : RfcMembers str key t ms →
      RfcValue str key (123 :: (t ++ [125])) (.object fun k => (ms.reverse.find? fun x => x.1 = k).map Prod.snd)
inductive RfcItems (str key : Bytes → Bytes → Prop) : Bytes → List Doc → Prop
  | one {a t b : Bytes} {d : Doc} : Blank a → RfcValue str key t d → Blank b → RfcItems str key (a ++ (t ++ b)) [d]
  | more {a t b r : Bytes} {d : Doc} {ds : List Doc} : Blank a → RfcValue str key t d → Blank b → RfcItems str key r ds → RfcItems str key (a ++ (t ++ (b ++ 44 :: r))) (d :: ds)
inductive RfcMembers (str key : Bytes → Bytes → Prop) : Bytes → List (Bytes × Doc) → Prop
  | one {a kt k b c t e : Bytes} {d : Doc} : Blank a → RfcChars kt → key kt k → Blank b → Blank c → RfcValue str key t d → Blank e →
      RfcMembers str key (a ++ 34 :: (kt ++ 34 :: (b ++ 58 :: (c ++ (t ++ e))))) [(k, d)]
  | more {a kt k b c t e r : Bytes} {d : Doc} {ms : List (Bytes × Doc)} : Blank a → RfcChars kt → key kt k → Blank b → Blank c → RfcValue str key t d → Blank e →
      RfcMembers str key r ms → RfcMembers str key (a ++ 34 :: (kt ++ 34 :: (b ++ 58 :: (c ++ (t ++ (e ++ 44 :: r)))))) ((k, d) :: ms)
end

/-- `JSON-text = ws value ws` -/
def RfcText (str key : Bytes → Bytes → Prop) (t : Bytes) (d : Doc) : Prop := ∃ a v b, t = a ++ (v ++ b) ∧ Blank a ∧ RfcValue str key v d ∧ Blank b

/-- A JSON text, whatever it denotes. -/
def IsRfcText (t : Bytes) : Prop := ∃ d, RfcText (fun _ _ => True) (fun _ _ => True) t d

/-- What the library makes of the text of a string value: escapes other than `\u` are replaced, and then once more. -/
def LibString (t v : Bytes) : Prop := ∃ u, LooseChars t u ∧ SecondPass u v

end JsonSpec
