import Verif.Spec.Json
import Verif.Spec.Strings
/-! # Specification of the Mustache language

Independent of the renderer: templates as trees, their text, and what they evaluate to.  The data is a JSON element (`Json.Elem`, the tree of C24–C30). -/
namespace MustacheSpec
open Json (Bytes Elem)

/-! ## HTML -/

/-- The text a character stands for in HTML. -/
def entity : UInt8 → Bytes
  | 38 => "&amp;".toUTF8.toList
  | 34 => "&quot;".toUTF8.toList
  | 60 => "&lt;".toUTF8.toList
  | 62 => "&gt;".toUTF8.toList
  | c => [c]

/-- A text with `& " < >` replaced by their entities. -/
def escape (s : Bytes) : Bytes := s.flatMap entity

/-! ## Trees -/

/-- The five kinds of variable tags: `{{x}}`, `{{&x}}`, `{{{x}}}`, `{{%x}}` (serialised over several lines), `{{$x}}` (serialised on one). -/
inductive Kind where
  | escaped | amp | triple | pretty | compact
  deriving DecidableEq

/-- A tag's text between the delimiters, after the sigil: a name between blanks. -/
structure Name where
  left : Bytes
  name : Bytes
  right : Bytes
  deriving DecidableEq

/-- How a tag that stands for no text is laid out: among other text, or alone on its line, with the blanks before it and what is left of the line after it. -/
inductive Layout where
  | inline
  | line (lead trail : Bytes)
  deriving DecidableEq

/-- A template: a sequence of texts, variables, comments and sections. -/
inductive Tpl where
  | nil
  | text (s : Bytes) (rest : Tpl)
  | var (k : Kind) (n : Name) (rest : Tpl)
  | comment (lay : Layout) (s : Bytes) (rest : Tpl)
  | section (inv : Bool) (lay : Layout) (n : Name) (body : Tpl) (closeLay : Layout) (close : Name) (rest : Tpl)

def Name.print (n : Name) : Bytes := n.left ++ n.name ++ n.right
/-- `{{…}}` -/
def tag (inner : Bytes) : Bytes := [123, 123] ++ inner ++ [125, 125]
def Layout.print (lay : Layout) (tg : Bytes) : Bytes :=
  match lay with
  | .inline => tg
  | .line lead trail => lead ++ tg ++ trail
def Kind.print (k : Kind) (n : Bytes) : Bytes :=
  match k with
  | .escaped => tag n
  | .amp => tag (38 :: n)
  | .triple => tag (123 :: n ++ [125])
  | .pretty => tag (37 :: n)
  | .compact => tag (36 :: n)

/-- The tag that opens a section (`#`) or an inverted section (`^`). -/
def openTag (inv : Bool) (n : Name) : Bytes := tag ((if inv then 94 else 35) :: n.print)
def closeTag (n : Name) : Bytes := tag (47 :: n.print)

/-- The text of a template. -/
def Tpl.print : Tpl → Bytes
  | .nil => []
  | .text s rest => s ++ rest.print
  | .var k n rest => k.print n.print ++ rest.print
  | .comment lay s rest => lay.print (tag (33 :: s)) ++ rest.print
  | .section inv lay n body clay cl rest => lay.print (openTag inv n) ++ body.print ++ clay.print (closeTag cl) ++ rest.print

/-! ## Well-formed trees: those whose text reads back as themselves -/

def blank (c : UInt8) : Bool := c == 9 || c == 32

/-- At the beginning of a line. -/
def AtLineStart (pre : Bytes) : Prop := pre = [] ∨ ∃ a, pre = a ++ [10]
/-- Nothing but blanks (and carriage returns) before the end of the line or of the template. -/
def gap (c : UInt8) : Bool := c == 9 || c == 32 || c == 13
/-- A tag between `pre` and `post` is alone on its line. -/
def Alone (pre post : Bytes) : Prop :=
  (∃ a b, pre = a ++ b ∧ AtLineStart a ∧ b.all blank) ∧ ∃ a b, post = a ++ b ∧ a.all gap ∧ (b = [] ∨ ∃ c, b = 10 :: c)

/-- The layout of a tag describes its surroundings `pre` (before the whole) and `post` (after it). -/
def Layout.wf (pre post : Bytes) : Layout → Prop
  | .inline => ¬ Alone pre post
  | .line lead trail => AtLineStart pre ∧ lead.all blank ∧ ∃ g, g.all gap ∧ (trail = g ++ [10] ∨ (trail = g ∧ post = []))

/-- A text in which no tag begins: no `{{`, and no `{` at the end. -/
def PlainText (s : Bytes) : Prop := ¬ [123, 123] <:+: s ∧ ¬ [123] <:+ s
/-- A comment's text: no `}}`, and no `}` at the end. -/
def CommentText (s : Bytes) : Prop := ¬ [125, 125] <:+: s ∧ ¬ [125] <:+ s

/-- The characters that give a tag another meaning. -/
def sigils : Bytes := [35, 94, 47, 33, 61, 123, 38, 37, 36]

structure Name.wf (n : Name) : Prop where
  left : n.left.all blank
  right : n.right.all blank
  brace : 125 ∉ n.name
  first : ∀ c, n.name.head? = some c → blank c = false
  last : ∀ c, n.name.getLast? = some c → blank c = false

/-- The template is well formed between the texts `pre` and `post`. -/
def Tpl.wf (pre post : Bytes) : Tpl → Prop
  | .nil => True
  | .text s rest => PlainText s ∧ rest.wf (pre ++ s) post
  | .var k n rest => n.wf ∧ (k = .escaped → ∀ c, n.print.head? = some c → c ∉ sigils) ∧ rest.wf (pre ++ k.print n.print) post
  | .comment lay s rest =>
    CommentText s ∧ lay.wf pre (rest.print ++ post) ∧ rest.wf (pre ++ lay.print (tag (33 :: s))) post
  | .section inv lay n body clay cl rest =>
    n.wf ∧ cl.wf ∧
    lay.wf pre (body.print ++ clay.print (closeTag cl) ++ rest.print ++ post) ∧
    body.wf (pre ++ lay.print (openTag inv n)) (clay.print (closeTag cl) ++ rest.print ++ post) ∧
    clay.wf (pre ++ lay.print (openTag inv n) ++ body.print) (rest.print ++ post) ∧
    rest.wf (pre ++ lay.print (openTag inv n) ++ body.print ++ clay.print (closeTag cl)) post

/-- The template serialises something (`{{%x}}`, `{{$x}}`). -/
def Tpl.serial : Tpl → Bool
  | .nil => false
  | .text _ rest => rest.serial
  | .var k _ rest => k = .pretty || k = .compact || rest.serial
  | .comment _ _ rest => rest.serial
  | .section _ _ _ body _ _ rest => body.serial || rest.serial

/-! ## Evaluation -/

/-- The scopes, innermost first; `none` is the scope of a section whose name was not found. -/
abbrev Scopes := List (Option Elem)

def member (k : Bytes) : Elem → Option Elem
  | .cont _ .object ks => ks.find? fun c => c.name == some k
  | _ => none

/-- The innermost scope with such a member. -/
def resolve (k : Bytes) : Scopes → Option Elem
  | [] => none
  | s :: ss => match s.bind (member k) with
    | some v => some v
    | none => resolve k ss

/-- "-top-" -/
def top : Bytes := "-top-".toUTF8.toList

/-- What a first component denotes: it is resolved in the scopes; `-top-`, unless so resolved, is the outermost scope. -/
def base (ss : Scopes) (c : Bytes) : Option Elem :=
  match resolve c ss with
  | some v => some v
  | none => if c = top then ss.getLast?.join else none

/-- What a dotted name denotes: the further components are members. A name without components is the empty name. -/
def denote (ss : Scopes) (name : Bytes) : Option Elem :=
  match TokenSpec.tokens (· == 46) name with
  | [] => base ss []
  | c :: cs => (base ss c).bind fun v => cs.foldlM (fun v k => member k v) v

/-- Why rendering stops short. -/
inductive Stop where
  | fail | abort | exit
  deriving DecidableEq

/-- What the C library and the JSON writer contribute: the text of a real, the two serialisations of a container. -/
structure Env where
  real : Bytes → Bytes
  pretty : Elem → Bytes
  compact : Elem → Bytes

/-- The text of a primitive: strings as they are, integers in canonical decimal (a text that is not a 64-bit integer ends the process), `true` and `false`, nothing
for `null`. -/
def primText (env : Env) (esc : Bool) : Json.PType → Bytes → Except Stop Bytes
  | .string, v => .ok (if esc then escape v else v)
  | .integer, v => match Str.stringToLong v with
    | some (.ok x) => .ok (NumSpec.decimalInt x)
    | _ => .error .exit
  | .real, v => .ok (env.real v)
  | .bool, v => .ok (if v = "true".toUTF8.toList then "true".toUTF8.toList else "false".toUTF8.toList)
  | .null, _ => .ok []

/-- The text of an element under a variable tag; `bare` is for a container that is not serialised. -/
def elemText (env : Env) (k : Kind) (bare : Except Stop Bytes) : Elem → Except Stop Bytes
  | .prim _ t v => primText env (k = .escaped) t v
  | .cont n ct ks => match k with
    | .pretty => .ok (env.pretty (.cont n ct ks))
    | .compact => .ok (env.compact (.cont n ct ks))
    | _ => bare

/-- The text of `@`: the key of the current element; if that is a container, `{{%@}}` and `{{$@}}` still serialise it. -/
def keyText (env : Env) (k : Kind) (key : Bytes) : Elem → Except Stop Bytes
  | .prim _ _ _ => .ok (if k = .escaped then escape key else key)
  | .cont n ct ks => elemText env k (.ok (if k = .escaped then escape key else key)) (.cont n ct ks)

/-- The text of a variable tag: `.` is the current element, `@` its key or index, the empty name gives the two delimiters, a name that denotes nothing gives nothing,
one that denotes a container aborts the process. -/
def varText (env : Env) (ss : Scopes) (key : Option Bytes) (k : Kind) (name : Bytes) : Except Stop Bytes :=
  if name = [] then .ok (tag [])
  else if name = [64] then
    match key, ss.head?.join with
    | none, _ => .error .fail
    | some _, none => .ok []
    | some key, some e => keyText env k key e
  else if name = [46] then
    match ss.head?.join with
    | none => .ok []
    | some e => elemText env k (.error .fail) e
  else
    match denote ss name with
    | none => .ok []
    | some e => elemText env k (.error .abort) e

/-- The body of a section mentions the key (`{{@}}`, `{{&@}}`, `{{{@}}}`) before any further section or the end of one: then it is for each member of an
object. (An inverted section is looked into.) -/
def Tpl.usesKey : Tpl → Bool
  | .nil => false
  | .text _ rest => rest.usesKey
  | .var k n rest => ((k = .escaped || k = .amp || k = .triple) && n = ⟨[], [64], []⟩) || rest.usesKey
  | .comment _ _ rest => rest.usesKey
  | .section inv _ _ body _ _ _ => inv && body.usesKey

/-- How a section is rendered: its body once, or once for each of some elements with their keys; `skip`: nothing of it is seen. -/
inductive Mode where
  | once (skip : Bool)
  | each (items : List (Bytes × Elem)) (skip : Bool)
  | stop

/-- The decimal indices of a list. -/
def numbered (ks : List Elem) : List (Bytes × Elem) := ks.zipIdx.map fun x => (NumSpec.decimal x.2, x.1)
/-- The members of an object with their keys. -/
def named (ks : List Elem) : List (Bytes × Elem) := ks.map fun c => (c.name.getD [], c)

/-- The mode of a section on an element: a name that denotes nothing and `false` are as good as an empty list; other primitives are refused. A list or object with
nothing to iterate over decides by itself what is seen, whatever the enclosing section. -/
def mode (skip inv : Bool) (body : Tpl) : Option Elem → Mode
  | none => .once (skip || !inv)
  | some (.prim _ .bool v) => .once (skip || (decide (v = "true".toUTF8.toList) == inv))
  | some (.prim _ _ _) => .stop
  | some (.cont _ .object ks) =>
    if body.usesKey then (if ks = [] then .once (!inv) else .each (named ks) (skip || inv)) else .once (skip || inv)
  | some (.cont _ .array ks) => if ks = [] then .once (!inv) else .each (numbered ks) (skip || inv)

/-- The outcome of an evaluation: a text and the scopes afterwards, or a text and why it stopped. -/
inductive Outcome where
  | ok (text : Bytes) (ss : Scopes)
  | stop (text : Bytes) (why : Stop)

def Outcome.andThen (o : Outcome) (f : Scopes → Outcome) : Outcome :=
  match o with
  | .stop a w => .stop a w
  | .ok a ss => match f ss with
    | .ok b ss => .ok (a ++ b) ss
    | .stop b w => .stop (a ++ b) w

/-- One text after the other, for each item in turn, with the item as innermost scope. -/
def forEach (f : Bytes → Scopes → Outcome) : List (Bytes × Elem) → Scopes → Outcome
  | [], ss => .ok [] ss
  | (k, e) :: items, ss => (f k (some e :: ss)).andThen fun ss => forEach f items ss.tail

/-- A variable tag, seen or not. -/
def varOutcome (env : Env) (skip : Bool) (key : Option Bytes) (k : Kind) (name : Bytes) (ss : Scopes) : Outcome :=
  if skip then .ok [] ss
  else match varText env ss key k name with
    | .ok text => .ok text ss
    | .error w => .stop [] w

/-- A section with its element as innermost scope, given what its body comes to. -/
def sectionOutcome (leak : Bool) (m : Mode) (body : (skip : Bool) → (key : Option Bytes) → Scopes → Outcome) (ss : Scopes) : Outcome :=
  match m with
  | .stop => .stop [] .fail
  | .once skip => (body skip none ss).andThen fun ss => .ok [] ss.tail
  | .each items skip => (forEach (fun k ss => body skip (some k) ss) items ss).andThen fun ss => .ok [] (if leak then ss else ss.tail)

/-- Evaluation in the scopes `ss`, with the key of the current item, seen or not. `leak = false` is lexical scoping: a section's scopes end with it. `leak = true` is
what the library does: a section over several items leaves its list (or object) behind, and the next closing tag removes that instead of its own. -/
def Tpl.eval (env : Env) (leak : Bool) : Tpl → (skip : Bool) → (key : Option Bytes) → Scopes → Outcome
  | .nil, _, _, ss => .ok [] ss
  | .text s rest, skip, key, ss => (Outcome.ok (if skip then [] else s) ss).andThen fun ss => rest.eval env leak skip key ss
  | .var k n rest, skip, key, ss => (varOutcome env skip key k n.name ss).andThen fun ss => rest.eval env leak skip key ss
  | .comment _ _ rest, skip, key, ss => rest.eval env leak skip key ss
  | .section inv _ n body _ _ rest, skip, key, ss =>
    (sectionOutcome leak (mode skip inv body (denote ss n.name)) (fun skip' key ss => body.eval env leak skip' key ss) (denote ss n.name :: ss)).andThen fun ss =>
      rest.eval env leak skip key ss

/-! ## Kinds of data and templates -/

mutual
/-- The members of every object are in the order of their keys. -/
def InOrder : Elem → Prop
  | .prim _ _ _ => True
  | .cont _ .array ks => InOrderAll ks
  | .cont _ .object ks => InOrderAll ks ∧ ks.Pairwise fun a b => ∃ x y, a.name = some x ∧ b.name = some y ∧ OrderSpec.Less id x y
def InOrderAll : List Elem → Prop
  | [] => True
  | e :: es => InOrder e ∧ InOrderAll es
end

/-- No section. -/
def Tpl.noSection : Tpl → Bool
  | .nil => true
  | .text _ rest => rest.noSection
  | .var _ _ rest => rest.noSection
  | .comment _ _ rest => rest.noSection
  | .section .. => false

/-- Sections are not nested, none of them mentions `@`, and `.` and `@` are used in sections only. -/
def Tpl.flat : Tpl → Bool
  | .nil => true
  | .text _ rest => rest.flat
  | .var _ n rest => n.name != [46] && n.name != [64] && rest.flat
  | .comment _ _ rest => rest.flat
  | .section _ _ _ body _ _ rest => body.noSection && !body.usesKey && rest.flat

/-- Nowhere inside a section another section is rendered for the items of a list (or the members of an object); outside all sections none is rendered for the members of an object, and `.` and `@`
are not used. Sections that are rendered once (objects, booleans, missing names, empty lists) may be nested anyhow, also in sections over lists. The scopes are those lexical scoping gives. -/
def Tpl.calm (inside : Bool) : Tpl → Scopes → Bool
  | .nil, _ => true
  | .text _ rest, ss => rest.calm inside ss
  | .var _ n rest, ss => (inside || (n.name != [46] && n.name != [64])) && rest.calm inside ss
  | .comment _ _ rest, ss => rest.calm inside ss
  | .section inv _ n body _ _ rest, ss =>
    (match mode false inv body (denote ss n.name) with
      | .stop => true
      | .once _ => body.calm true (denote ss n.name :: ss)
      | .each items _ => !inside && !body.usesKey && items.all fun x => body.calm true (some x.2 :: denote ss n.name :: ss)) &&
    rest.calm inside ss

mutual
/-- No list with something in it. -/
def listless : Elem → Bool
  | .prim _ _ _ => true
  | .cont _ .array ks => ks.isEmpty
  | .cont _ .object ks => listlessAll ks
def listlessAll : List Elem → Bool
  | [] => true
  | e :: es => listless e && listlessAll es
end

/-- `@` is nowhere used, and `.` in sections only. -/
def Tpl.plain (inside : Bool) : Tpl → Bool
  | .nil => true
  | .text _ rest => rest.plain inside
  | .var _ n rest => n.name != [64] && (inside || n.name != [46]) && rest.plain inside
  | .comment _ _ rest => rest.plain inside
  | .section _ _ _ body _ _ rest => body.plain true && rest.plain inside

/-- The template without its comments. -/
def Tpl.uncommented : Tpl → Tpl
  | .nil => .nil
  | .text s rest => .text s rest.uncommented
  | .var k n rest => .var k n rest.uncommented
  | .comment _ _ rest => rest.uncommented
  | .section inv lay n body clay cl rest => .section inv lay n body.uncommented clay cl rest.uncommented

/-- An outcome without the scopes. -/
def Outcome.result : Outcome → Option Stop × Bytes
  | .ok text _ => (none, text)
  | .stop text w => (some w, text)

end MustacheSpec
