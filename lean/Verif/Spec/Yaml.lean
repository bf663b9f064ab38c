import Verif.Spec.JsonLoose
/-! # YAML documents, the events a parser reports for them, and the JSON documents they stand for

Scalars follow the YAML 1.1 type repository (yaml.org/type/null.html, bool.html) and the number syntax of this library (`NumberText`). -/
namespace YamlSpec
open JsonSpec

abbrev Bytes := List UInt8

/-- "tag:yaml.org,2002:" followed by null, bool, str, int, float, timestamp. -/
def tagPrefix : Bytes := [116, 97, 103, 58, 121, 97, 109, 108, 46, 111, 114, 103, 44, 50, 48, 48, 50, 58]
def tagNull : Bytes := tagPrefix ++ [110, 117, 108, 108]
def tagBool : Bytes := tagPrefix ++ [98, 111, 111, 108]
def tagStr : Bytes := tagPrefix ++ [115, 116, 114]
def tagInt : Bytes := tagPrefix ++ [105, 110, 116]
def tagFloat : Bytes := tagPrefix ++ [102, 108, 111, 97, 116]
def tagTimestamp : Bytes := tagPrefix ++ [116, 105, 109, 101, 115, 116, 97, 109, 112]

/-- A scalar as written in the text: plain, in quotes (or as a block), or with an explicit tag. The text is without NUL bytes. -/
inductive Scalar where
  | plain (t : Bytes)
  | quoted (t : Bytes)
  | tagged (tag t : Bytes)

/-- A document without anchors, with scalars for keys. -/
inductive Node where
  | scalar (s : Scalar)
  | seq (items : List Node)
  | map (members : List (Scalar × Node))

def Scalar.text : Scalar → Bytes
  | .plain t => t
  | .quoted t => t
  | .tagged _ t => t

/-- `~`, the empty text, NULL, Null, null. -/
def nullWords : List Bytes := [[126], [], [78, 85, 76, 76], [78, 117, 108, 108], [110, 117, 108, 108]]
/-- Y, y, YES, Yes, yes, TRUE, True, true, ON, On, on. -/
def trueWords : List Bytes := [[89], [121], [89, 69, 83], [89, 101, 115], [121, 101, 115], [84, 82, 85, 69], [84, 114, 117, 101], [116, 114, 117, 101],
  [79, 78], [79, 110], [111, 110]]
/-- N, n, NO, No, no, FALSE, False, false, OFF, Off, off. -/
def falseWords : List Bytes := [[78], [110], [78, 79], [78, 111], [110, 111], [70, 65, 76, 83, 69], [70, 97, 108, 115, 101], [102, 97, 108, 115, 101],
  [79, 70, 70], [79, 102, 102], [111, 102, 102]]

/-- The JSON document a scalar stands for. -/
inductive ScalarDoc : Scalar → Doc → Prop
  | null {t : Bytes} : t ∈ nullWords → ScalarDoc (.plain t) .null
  | true {t : Bytes} : t ∈ trueWords → ScalarDoc (.plain t) (.bool true)
  | false {t : Bytes} : t ∈ falseWords → ScalarDoc (.plain t) (.bool false)
  | integer {t : Bytes} : NumberText t → 46 ∉ t → ScalarDoc (.plain t) (.integer t)
  | real {t : Bytes} : NumberText t → 46 ∈ t → ScalarDoc (.plain t) (.real t)
  | text {t : Bytes} : t ∉ nullWords → t ∉ trueWords → t ∉ falseWords → ¬ NumberText t → ScalarDoc (.plain t) (.string t)
  | quoted {t : Bytes} : ScalarDoc (.quoted t) (.string t)
  | taggedNull {t : Bytes} : t ∈ nullWords → ScalarDoc (.tagged tagNull t) .null
  | taggedTrue {t : Bytes} : t ∈ trueWords → ScalarDoc (.tagged tagBool t) (.bool true)
  | taggedFalse {t : Bytes} : t ∈ falseWords → ScalarDoc (.tagged tagBool t) (.bool false)
  | taggedInteger {tag t : Bytes} : tag = tagInt ∨ tag = tagFloat → NumberText t → 46 ∉ t → ScalarDoc (.tagged tag t) (.integer t)
  | taggedReal {tag t : Bytes} : tag = tagInt ∨ tag = tagFloat → NumberText t → 46 ∈ t → ScalarDoc (.tagged tag t) (.real t)
  | taggedText {tag t : Bytes} : tag ∉ [tagNull, tagBool, tagInt, tagFloat] → ScalarDoc (.tagged tag t) (.string t)

/-- No number followed by a blank, a comma or a closing bracket stands at the beginning of a scalar that may be a number. -/
def NoLeadingNumber : Scalar → Prop
  | .plain t => ∀ a c b, t = a ++ c :: b → NumberText a → ¬ (IsBlank c ∨ c = 44 ∨ c = 93 ∨ c = 125)
  | _ => True

mutual
/-- The JSON document a node stands for: the last of several members with the same key counts. -/
inductive NodeDoc : Node → Doc → Prop
  | scalar {s : Scalar} {d : Doc} : ScalarDoc s d → NodeDoc (.scalar s) d
  | seq {ns : List Node} {ds : List Doc} : NodeDocs ns ds → NodeDoc (.seq ns) (.array ds)
  | map {ms : List (Scalar × Node)} {ps : List (Bytes × Doc)} : MemberDocs ms ps →
      NodeDoc (.map ms) (.object fun k => (ps.reverse.find? fun x => x.1 = k).map Prod.snd)
inductive NodeDocs : List Node → List Doc → Prop
  | nil : NodeDocs [] []
  | cons {n : Node} {ns : List Node} {d : Doc} {ds : List Doc} : NodeDoc n d → NodeDocs ns ds → NodeDocs (n :: ns) (d :: ds)
inductive MemberDocs : List (Scalar × Node) → List (Bytes × Doc) → Prop
  | nil : MemberDocs [] []
  | cons {k : Scalar} {n : Node} {ms : List (Scalar × Node)} {d : Doc} {ps : List (Bytes × Doc)} : NodeDoc n d → MemberDocs ms ps →
      MemberDocs ((k, n) :: ms) ((k.text, d) :: ps)
end

mutual
/-- A condition on all scalars that are not keys, and one on those that are. -/
def Node.All (p q : Scalar → Prop) : Node → Prop
  | .scalar s => p s
  | .seq ns => AllItems p q ns
  | .map ms => AllMembers p q ms
def AllItems (p q : Scalar → Prop) : List Node → Prop
  | [] => True
  | n :: ns => n.All p q ∧ AllItems p q ns
def AllMembers (p q : Scalar → Prop) : List (Scalar × Node) → Prop
  | [] => True
  | m :: ms => q m.1 ∧ m.2.All p q ∧ AllMembers p q ms
end

end YamlSpec
