import Verif.Spec.Json
/-! # The language that `JsonParse` accepts

A grammar of remaining input: `Reads i r d` says that a reader standing at the beginning of the text `i` reads the document `d` and leaves `r`.  It is wider
than RFC 8259: see the comments on the rules. -/
namespace JsonSpec
open Json (Bytes)

def IsDigit (c : UInt8) : Prop := 48 ≤ c ∧ c ≤ 57
def IsBlank (c : UInt8) : Prop := c = 32 ∨ c = 9 ∨ c = 10 ∨ c = 13
/-- A letter, a digit or `_`. -/
def IsWord (c : UInt8) : Prop := (97 ≤ c ∧ c ≤ 122) ∨ (65 ≤ c ∧ c ≤ 90) ∨ IsDigit c ∨ c = 95

/-- The end of the text, or a blank, comma, `]` or `}`: what must follow a number or a literal. -/
def AtSeparator (r : Bytes) : Prop := ∀ c r', r = c :: r' → IsBlank c ∨ c = 44 ∨ c = 93 ∨ c = 125

def EndsInDigit (a : Bytes) : Prop := ∃ b c, a = b ++ [c] ∧ IsDigit c
def EndsInE (a : Bytes) : Prop := ∃ b c, a = b ++ [c] ∧ (c = 101 ∨ c = 69)

/-- `c` may come after the beginning `a` of a number: digits anywhere but after a lone 0, minus at the beginning or after E, plus after E, one point and one E,
each after a digit. (The point may come after the E, and zeros after a minus are not restricted.) -/
def MayFollow (a : Bytes) (c : UInt8) : Prop :=
  (IsDigit c ∧ a ≠ [48]) ∨ (c = 45 ∧ (a = [] ∨ EndsInE a)) ∨ (c = 43 ∧ EndsInE a) ∨ (c = 46 ∧ 46 ∉ a ∧ EndsInDigit a) ∨
    ((c = 101 ∨ c = 69) ∧ 101 ∉ a ∧ 69 ∉ a ∧ EndsInDigit a)

/-- A number. -/
def NumberText (t : Bytes) : Prop := (∀ a c b, t = a ++ c :: b → MayFollow a c) ∧ EndsInDigit t

/-- The text between the quotes of a key or string, and the string: as in RFC 8259, but a backslash before any other character is kept, and control
characters may stand for themselves. -/
inductive LooseChars : Bytes → Bytes → Prop
  | nil : LooseChars [] []
  | plain {c : UInt8} {t s : Bytes} : c ≠ 34 → c ≠ 92 → LooseChars t s → LooseChars (c :: t) (c :: s)
  | escape {d c : UInt8} {t s : Bytes} : (d, c) ∈ escapeOf → LooseChars t s → LooseChars (92 :: d :: t) (c :: s)
  | other {d : UInt8} {t s : Bytes} : (∀ c, (d, c) ∉ escapeOf) → LooseChars t s → LooseChars (92 :: d :: t) (92 :: d :: s)

/-- String values are unescaped a second time; now `\/` is not an escape, and a backslash that starts no escape is kept. -/
inductive SecondPass : Bytes → Bytes → Prop
  | nil : SecondPass [] []
  | escape {d c : UInt8} {t s : Bytes} : (d, c) ∈ escapeOf → d ≠ 47 → SecondPass t s → SecondPass (92 :: d :: t) (c :: s)
  | keep {c : UInt8} {t s : Bytes} : (∀ d x t', c = 92 → t = d :: t' → (d, x) ∈ escapeOf → d = 47) → SecondPass t s → SecondPass (c :: t) (c :: s)

/-- Where a reader is in an array: at its start, after a comma, or after a value. -/
inductive Place where
  | start | comma | value

mutual
inductive Reads : Bytes → Bytes → Doc → Prop
  | null {r : Bytes} : AtSeparator r → Reads ([110, 117, 108, 108] ++ r) r .null
  | true {r : Bytes} : AtSeparator r → Reads ([116, 114, 117, 101] ++ r) r (.bool true)
  | false {r : Bytes} : AtSeparator r → Reads ([102, 97, 108, 115, 101] ++ r) r (.bool false)
  | integer {t r : Bytes} : NumberText t → 46 ∉ t → AtSeparator r → Reads (t ++ r) r (.integer t)
  | real {t r : Bytes} : NumberText t → 46 ∈ t → AtSeparator r → Reads (t ++ r) r (.real t)
  | string {t u v r : Bytes} : LooseChars t u → SecondPass u v → Reads (34 :: (t ++ 34 :: r)) r (.string v)
  | array {i r : Bytes} {ds : List Doc} : ReadsItems .start i r ds → Reads (91 :: i) r (.array ds)
  | object {i r : Bytes} {ms : List (Bytes × Doc)} : ReadsMembers Bool.false i r ms →
      Reads (123 :: i) r (.object fun k => (ms.reverse.find? fun x => x.1 = k).map Prod.snd)
/-- The rest of an array. A comma may come only after a value; it may be left out before a string, number or literal, and may be followed by `]`. -/
inductive ReadsItems : Place → Bytes → Bytes → List Doc → Prop
  | close {p : Place} {r : Bytes} : ReadsItems p (93 :: r) r []
  | blank {p : Place} {c : UInt8} {i r : Bytes} {ds : List Doc} : IsBlank c → ReadsItems p i r ds → ReadsItems p (c :: i) r ds
  | comma {i r : Bytes} {ds : List Doc} : ReadsItems .comma i r ds → ReadsItems .value (44 :: i) r ds
  | item {p : Place} {i j r : Bytes} {d : Doc} {ds : List Doc} : Reads i j d → (p = .value → ∀ c i', i = c :: i' → c ≠ 91 ∧ c ≠ 123) →
      ReadsItems .value j r ds → ReadsItems p i r (d :: ds)
/-- The rest of an object, right after a comma or not. There may be one comma before or after any member, or none. A key is a quoted string, or an unquoted
word with a colon. -/
inductive ReadsMembers : Bool → Bytes → Bytes → List (Bytes × Doc) → Prop
  | close {b : Bool} {r : Bytes} : ReadsMembers b (125 :: r) r []
  | blank {b : Bool} {c : UInt8} {i r : Bytes} {ms : List (Bytes × Doc)} : IsBlank c → ReadsMembers b i r ms → ReadsMembers b (c :: i) r ms
  | comma {i r : Bytes} {ms : List (Bytes × Doc)} : ReadsMembers Bool.true i r ms → ReadsMembers Bool.false (44 :: i) r ms
  | quoted {b : Bool} {t k i r : Bytes} {ms : List (Bytes × Doc)} : LooseChars t k → ReadsMember k Bool.false i r ms → ReadsMembers b (34 :: (t ++ 34 :: i)) r ms
  | bare {b : Bool} {c : UInt8} {w bl i r : Bytes} {ms : List (Bytes × Doc)} : IsWord c → (∀ x ∈ w, IsWord x ∨ x = 45) → (∀ x ∈ bl, IsBlank x) →
      ReadsMember (c :: w) Bool.true i r ms → ReadsMembers b (c :: (w ++ bl ++ 58 :: i)) r ms
/-- After a key, and after its colon or not: a quoted key need not have one. -/
inductive ReadsMember : Bytes → Bool → Bytes → Bytes → List (Bytes × Doc) → Prop
  | blank {k : Bytes} {b : Bool} {c : UInt8} {i r : Bytes} {ms : List (Bytes × Doc)} : IsBlank c → ReadsMember k b i r ms → ReadsMember k b (c :: i) r ms
  | colon {k i r : Bytes} {ms : List (Bytes × Doc)} : ReadsMember k Bool.true i r ms → ReadsMember k Bool.false (58 :: i) r ms
  | value {k : Bytes} {b : Bool} {i j r : Bytes} {d : Doc} {ms : List (Bytes × Doc)} : Reads i j d → ReadsMembers Bool.false j r ms →
      ReadsMember k b i r ((k, d) :: ms)
end

end JsonSpec
