/-! # Specification: reading XML character data

`unescape` is what an XML processor does with character data: it resolves the five predefined entities and refuses a raw `<`, `>`,
quote, apostrophe, or an `&` that does not start one of the entities. -/
namespace XmlSpec

def entity : List UInt8 → Option (UInt8 × List UInt8)
  | 38 :: 97 :: 109 :: 112 :: 59 :: r => some (38, r)          -- &amp;
  | 38 :: 103 :: 116 :: 59 :: r => some (62, r)                -- &gt;
  | 38 :: 108 :: 116 :: 59 :: r => some (60, r)                -- &lt;
  | 38 :: 113 :: 117 :: 111 :: 116 :: 59 :: r => some (34, r)  -- &quot;
  | 38 :: 97 :: 112 :: 111 :: 115 :: 59 :: r => some (39, r)   -- &apos;
  | _ => none

/-- `special` are the characters that must not appear raw. -/
def unescape (special : UInt8 → Bool) : Nat → List UInt8 → Option (List UInt8)
  | 0, _ => none
  | _ + 1, [] => some []
  | n + 1, c :: r =>
    if c = 38 then
      match entity (c :: r) with
      | some (d, r) => (unescape special n r).map (d :: ·)
      | none => none
    else if special c then none
    else (unescape special n r).map (c :: ·)

/-- Character data of XML text. -/
def xmlText (t : List UInt8) : Option (List UInt8) :=
  unescape (fun c => c == 60 || c == 62 || c == 34 || c == 39) (t.length + 1) t

/-- Character data of HTML text or a double-quoted attribute. -/
def htmlText (t : List UInt8) : Option (List UInt8) :=
  unescape (fun c => c == 60 || c == 62 || c == 34) (t.length + 1) t

/-! ## Reading a start tag: `'<' Name (S Name '="' Value '"')* S? '>'` (XML 1.0, productions 40 and 41). -/

/-- White space. -/
def space (c : UInt8) : Bool := c == 32 || c == 9 || c == 10 || c == 13
/-- A character that does not end a name. -/
def nameChar (c : UInt8) : Bool := !space c && !([61, 62, 47, 34, 39, 60, 38].contains c)

/-- The attributes up to `>`, and the rest. References in values are not read here. -/
def readAttrs : Nat → List UInt8 → Option (List (List UInt8 × List UInt8) × List UInt8)
  | 0, _ => none
  | n + 1, t =>
    let r := t.dropWhile space
    if r.head? = some 62 then some ([], r.tail)
    else if r.length = t.length then none
    else if r.takeWhile nameChar = [] then none
    else match r.dropWhile nameChar with
      | 61 :: 34 :: v =>
        if 60 ∈ v.takeWhile (· ≠ 34) ∨ 38 ∈ v.takeWhile (· ≠ 34) then none
        else match v.dropWhile (· ≠ 34) with
          | 34 :: r' => (readAttrs n r').map fun x => ((r.takeWhile nameChar, v.takeWhile (· ≠ 34)) :: x.1, x.2)
          | _ => none
      | _ => none

/-- A start tag: its name, its attributes, and the rest. -/
def readStartTag : List UInt8 → Option (List UInt8 × List (List UInt8 × List UInt8) × List UInt8)
  | 60 :: t =>
    if t.takeWhile nameChar = [] then none
    else (readAttrs (t.length + 1) (t.dropWhile nameChar)).map fun x => (t.takeWhile nameChar, x.1, x.2)
  | _ => none

/-- A name, and a value that needs no escaping. -/
def isName (n : List UInt8) : Prop := n ≠ [] ∧ ∀ c ∈ n, nameChar c = true ∧ c ≠ 0
def isValue (v : List UInt8) : Prop := ∀ c ∈ v, c ≠ 0 ∧ c ≠ 34 ∧ c ≠ 38 ∧ c ≠ 60

end XmlSpec
