import Verif.Model.Json
import Verif.Model.Path
/-! # Model of the Mustache renderer (libutils/mustache.c)

The template is a C string: the list `t` of its bytes before the terminator; a `const char *` into it is an offset `p ≤ t.length`, and reading through it gives
`(t ++ [0])[p]?`. The data is one JSON element, changed in place by serialisation (json.c sorts the children of an object it writes), so an element pointer on
`hash_stack` is a path from the root: keys through objects, indices through arrays; a path stays valid when children are sorted, as the pointer does. The
output buffer is a C-string `Buffer` (buffer.c; C03): the list of bytes appended so far.  The two delimiters are strings in arrays of `MUSTACHE_MAX_DELIM_SIZE`
bytes; the separate length variables always hold their lengths.

`none` is undefined behaviour (an access out of bounds, a failed assertion in a callee, a size that wraps round) or a computation that does not end.
Tolerated, as no implementation misbehaves: `NULL - input` (mustache.c:699), `xstrndup(NULL, 0)` (159), `tag_start - 1` before the first byte (75). -/
namespace Mustache
open Json (Bytes Elem)

/-- `MUSTACHE_MAX_DELIM_SIZE` (mustache.c:57). -/
def maxDelim : Nat := 10

/-- `TagType` (mustache.c:33-46). -/
inductive TagType where
  | var | varUnescaped | varSerialized | varSerializedCompact | section | sectionEnd | inverted | comment | delim | err | none
  deriving DecidableEq, Repr

/-- `Mustache` (mustache.c:48-55); `fin` is `end`. -/
structure Tag where
  type : TagType
  begin : Option Nat := .none
  fin : Option Nat := .none
  content : Nat := 0
  len : Nat := 0
  deriving DecidableEq, Repr

/-- Reading the template. -/
def rd (t : Bytes) (p : Nat) : Option UInt8 := (t ++ [0])[p]?

/-- `IsSpace` (mustache.c:59-62). -/
def isSpace (c : UInt8) : Bool := c == 9 || c == 32

/-- The first loop of `IsTagStandalone` (mustache.c:74-95) with `cur + 1` as the argument; `start` is the beginning of the template. `some none` is `return false`. -/
def lineBegin (t : Bytes) : Nat → Option (Option Nat)
  | 0 => some (some 0)
  | cur + 1 => do
    let c ← rd t cur
    if isSpace c then (if cur = 0 then some (some 0) else lineBegin t cur)
    else if c = 10 then some (some (cur + 1))
    else some none

/-- The second loop of `IsTagStandalone` (mustache.c:97-127) over the bytes from `cur` on, the terminator included. -/
def lineEnd : Bytes → Nat → Option (Option Nat)
  | [], _ => none
  | c :: rest, cur =>
    if isSpace c then lineEnd rest (cur + 1)
    else if c = 10 then some (some (cur + 1))
    else if c = 13 then
      match rest with
      | [] => none
      | d :: rest => if d = 10 then some (some (cur + 2)) else lineEnd (d :: rest) (cur + 1)
    else if c = 0 then some (some cur)
    else some none

/-- `IsTagStandalone` (mustache.c:64-132): `*line_begin` and `*line_end`, or `some none` for false. -/
def isTagStandalone (t : Bytes) (tagStart tagEnd : Nat) : Option (Option (Nat × Nat)) := do
  let lb ← lineBegin t tagStart
  match lb with
  | none => some none
  | some lb => do
    let le ← lineEnd ((t ++ [0]).drop tagEnd) tagEnd
    match le with
    | none => some none
    | some le => some (some (lb, le))

/-- `IsTagTypeRenderable` (mustache.c:134-148). -/
def isTagTypeRenderable : TagType → Bool
  | .comment | .delim | .err | .inverted | .section | .sectionEnd => false
  | _ => true

/-- The switch of `NextTag` (mustache.c:230-271) on the first byte of the content: the type, whether `content` advances, and `extra_end`. -/
def tagKind (c : UInt8) : TagType × Nat × Option UInt8 :=
  if c = 35 then (.section, 1, none)
  else if c = 94 then (.inverted, 1, none)
  else if c = 47 then (.sectionEnd, 1, none)
  else if c = 33 then (.comment, 1, none)
  else if c = 61 then (.delim, 1, some 61)
  else if c = 123 then (.varUnescaped, 1, some 125)
  else if c = 38 then (.varUnescaped, 1, none)
  else if c = 37 then (.varSerialized, 1, none)
  else if c = 36 then (.varSerializedCompact, 1, none)
  else (.var, 0, none)

/-- `while (*ret.content == ' ' || …)` (mustache.c:300-304) over the bytes from `content` on; `content_len` must not wrap. -/
def trimLead : Bytes → (content len : Nat) → Option (Nat × Nat)
  | [], _, _ => none
  | c :: rest, content, len =>
    if isSpace c then (if len = 0 then none else trimLead rest (content + 1) (len - 1)) else some (content, len)

/-- `while (ret.content_len > 0 && …)` (mustache.c:306-311). -/
def trimTrail (t : Bytes) (content : Nat) : Nat → Option Nat
  | 0 => some 0
  | len + 1 => do
    let c ← rd t (content + len)
    if isSpace c then trimTrail t content len else some (len + 1)

/-- The end of the tag (mustache.c:273-298): `content_len` and `end`; `some none` is the error return. -/
def tagEnd (t de : Bytes) (content : Nat) : Option UInt8 → Option (Nat × Nat)
  | some x =>
    match Str.strstr (t.drop content) [x] with
    | none => none
    | some k => if de.isPrefixOf (t.drop (content + k + 1)) then some (k, content + k + 1 + de.length) else none
  | none =>
    match Str.strstr (t.drop content) de with
    | none => none
    | some k => some (k, content + k + de.length)

/-- `NextTag` (mustache.c:214-314). -/
def nextTag (t : Bytes) (input : Nat) (ds de : Bytes) : Option Tag :=
  match Str.strstr (t.drop input) ds with
  | none => some { type := .none }
  | some k => do
    let begin := input + k
    let c ← rd t (begin + ds.length)
    let kind := tagKind c
    let content := begin + ds.length + kind.2.1
    match tagEnd t de content kind.2.2 with
    | none => some { type := .err, begin := some begin, content }
    | some (len, fin) => do
      let r ← trimLead ((t ++ [0]).drop content) content len
      let len ← trimTrail t r.1 r.2
      some { type := kind.1, begin := some begin, fin := some fin, content := r.1, len }

/-- `RenderHTMLContent` (mustache.c:316-343). -/
def html : Bytes → Bytes
  | [] => []
  | c :: s =>
    (if c = 38 then [38, 97, 109, 112, 59]
    else if c = 34 then [38, 113, 117, 111, 116, 59]
    else if c = 60 then [38, 108, 116, 59]
    else if c = 62 then [38, 103, 116, 59]
    else [c]) ++ html s

/-- The bytes `RenderContent(out, input, e - input, false, skip)` appends (mustache.c:345-360, 694, 699): `BufferAppend` cuts the length at the terminator, so a NULL
`e` (no further tag), whose difference is a huge `size_t`, gives the rest of the template. An earlier `e` would wrap round too, and is `none`. -/
def contentBytes (t : Bytes) (input : Nat) (skip : Bool) : Option Nat → Option Bytes
  | none => some (if skip then [] else t.drop input)
  | some e => if e < input then none else some (if skip then [] else (t.drop input).take (e - input))

/-! ## Data -/

/-- A step from an element to a child. -/
inductive Step where
  | key (k : Bytes)
  | idx (i : Nat)
  deriving DecidableEq, Repr

abbrev Path := List Step

/-- The child a step leads to. -/
def child (e : Elem) : Step → Option Elem
  | .key k => match e with
    | .cont _ .object ks => ks.find? fun c => c.name == some k
    | _ => none
  | .idx i => match e with
    | .cont _ .array ks => ks[i]?
    | _ => none

/-- The element a path leads to. -/
def get (e : Elem) : Path → Option Elem
  | [] => some e
  | s :: p => (child e s).bind fun c => get c p

/-- The first child named `k` replaced. -/
def setKey (k : Bytes) (v : Elem) : List Elem → List Elem
  | [] => []
  | c :: cs => if c.name == some k then v :: cs else c :: setKey k v cs

/-- The element with the one at the path replaced. -/
def put (e : Elem) : Path → Elem → Elem
  | [], v => v
  | .key k :: p, v => match e with
    | .cont n .object ks => match ks.find? fun c => c.name == some k with
      | some c => .cont n .object (setKey k (put c p v) ks)
      | none => e
    | e => e
  | .idx i :: p, v => match e with
    | .cont n .array ks => match ks[i]? with
      | some c => .cont n .array (ks.set i (put c p v))
      | none => e
    | e => e

/-- What changes while rendering: the output, the data, `hash_stack` (its last element first; `none` is NULL), the delimiters. -/
structure St where
  out : Bytes
  root : Elem
  stack : List (Option Path)
  ds : Bytes
  de : Bytes

/-- Component `i` of a dotted name, copied (mustache.c:158-159, 199-200); no component gives the empty string. -/
def comp (name : Bytes) (i : Nat) : Bytes :=
  match Str.getToken name i [46] with
  | some (off, len) => (name.drop off).take len
  | none => []

/-- The loop of `LookupVariable` over the stack (mustache.c:166-183), from the top. `some none`: not found. -/
def lookupBase (root : Elem) (k : Bytes) : List (Option Path) → Option (Option Path)
  | [] => some none
  | none :: st => lookupBase root k st
  | some p :: st =>
    match get root p with
    | none => none
    | some (.cont _ .object ks) => do
      let r ← Json.get ks k
      match r with
      | some _ => some (some (p ++ [.key k]))
      | none => lookupBase root k st
    | some _ => lookupBase root k st

/-- The loop of `LookupVariable` over the further components (mustache.c:192-208). -/
def lookupRest (root : Elem) (name : Bytes) : (n : Nat) → (i : Nat) → Path → Option (Option Path)
  | 0, _, p => some (some p)
  | n + 1, i, p =>
    match get root p with
    | none => none
    | some (.cont _ .object ks) => do
      let r ← Json.get ks (comp name i)
      match r with
      | some _ => lookupRest root name n (i + 1) (p ++ [.key (comp name i)])
      | none => some none
    | some _ => some none

/-- "-top-" -/
def litTop : Bytes := [45, 116, 111, 112, 45]

/-- `base_var` (mustache.c:156-190): `-top-` is the first element of the stack unless some element of the stack has such a key. -/
def baseVar (st : St) (k : Bytes) : Option (Option Path) := do
  let r ← lookupBase st.root k st.stack
  match r with
  | some p => some (some p)
  | none => if k = litTop then some st.stack.getLast?.join else some none

/-- `LookupVariable` (mustache.c:150-212). -/
def lookupVariable (st : St) (name : Bytes) : Option (Option Path) :=
  if st.stack = [] then none
  else do
    let b ← baseVar st (comp name 0)
    match b with
    | none => some none
    | some p => lookupRest st.root name (Str.countTokens name [46] - 1) 1 p

/-- What a call of the renderer comes to: `true`, with `*section_end` if it was set; `false`; an abort by `assert(false)` (mustache.c:510), a call of `exit`
in `StringToLongExitOnError`, a delimiter copied beyond its array. -/
inductive Res where
  | ok (st : St) (sectionEnd : Option Nat)
  | fail (st : St)
  | abort (st : St)
  | exit (st : St)
  | overflow (st : St)

/-- `StringFromDouble(JsonPrimitiveGetAsReal(…))`: what the C library makes of a real's text. -/
abbrev RealText := Bytes → Bytes

/-- What the rendering of a variable comes to. -/
inductive VarRes where
  | ok (text : Bytes)
  | fail
  | abort
  | exit

/-- `RenderVariablePrimitive` (mustache.c:362-417). -/
def renderPrimitive (rt : RealText) (t : Json.PType) (v : Bytes) (escaped : Bool) (jsonKey : Option Bytes) : Option VarRes :=
  match jsonKey with
  | some k => some (.ok (if escaped then html k else k))
  | none =>
    match t with
    | .string => some (.ok (if escaped then html v else v))
    | .integer => (Str.stringToLong v).bind fun r =>
      match r with
      | .ok x => some (.ok (Json.intText x))
      | .error _ => some .exit
    | .real => some (.ok (rt v))
    | .bool => some (.ok (if v = Json.litTrue then Json.litTrue else Json.litFalse))
    | .null => some (.ok [])

/-- The switch of `RenderVariable` (mustache.c:479-511) on an element at a path: the result and the data afterwards. `RenderVariableContainer` is mustache.c:419-434. -/
def renderElem (rt : RealText) (root : Elem) (p : Path) (conv : TagType) (itemMode : Bool) (jsonKey : Option Bytes) : Option (VarRes × Elem) :=
  match get root p with
  | none => none
  | some (.prim _ t v) => (renderPrimitive rt t v (conv == .var) jsonKey).map fun r => (r, root)
  | some (.cont n ct ks) =>
    if conv = .varSerialized then (Json.jsonWrite 0 (.cont n ct ks)).map fun r => (.ok r.1, put root p r.2)
    else if conv = .varSerializedCompact then (Json.writeCompact (.cont n ct ks)).map fun r => (.ok r.1, put root p r.2)
    else match jsonKey with
      | some k => some (.ok (if conv == .var then html k else k), root)
      | none => if itemMode then some (.fail, root) else some (.abort, root)

/-- The element a variable tag names (mustache.c:448-465): `.` and `@` are about the top of the stack. -/
def varOf (st : St) (name : Bytes) : Option (Option Path) := if name = [46] ∨ name = [64] then st.stack.head? else lookupVariable st name

/-- `RenderVariable` (mustache.c:436-512) for `content_len > 0`. -/
def renderVariable (rt : RealText) (st : St) (name : Bytes) (conv : TagType) (jsonKey : Option Bytes) : Option (VarRes × Elem) := do
  let item := name == [46]
  let key := name == [64]
  let var ← varOf st name
  if key && jsonKey.isNone then some (.fail, st.root)
  else match var with
    | none => some (.ok [], st.root)
    | some p => renderElem rt st.root p conv item (if key then jsonKey else none)

/-- `SetDelimiters` (mustache.c:514-549): the two new delimiters; `none` is false. Writing the terminator beyond the array is `overflow`. -/
inductive DelimRes where
  | ok (ds de : Bytes)
  | fail
  | overflow
  deriving DecidableEq

def tok (content : Bytes) (i : Nat) : Bytes :=
  match Str.getToken content i [32, 9] with
  | some (off, len) => (content.drop off).take len
  | none => []

def setDelimiters (content : Bytes) : DelimRes :=
  if Str.countTokens content [32, 9] ≠ 2 then .fail
  else
    let first := tok content 0
    let second := tok content 1
    if first.length > maxDelim then .fail
    else if first.length = maxDelim then .overflow
    else if second.length > maxDelim then .fail
    else if second.length = maxDelim then .overflow
    else .ok first second

/-- `StringStartsWith(t + p, pre)` (C library and string_lib.c:1492-1510). -/
def startsAt (t : Bytes) (p : Nat) (pre : Bytes) : Option Bool := Path.startsWith (t.drop p) pre

/-- `IsKeyExtensionVar` (mustache.c:551-596). -/
def isKeyExtensionVar (t : Bytes) (type : TagType) (b : Nat) (ds de : Bytes) : Option Bool :=
  if type = .var then do
    let s1 ← startsAt t b ds
    if !s1 then some false
    else do
      let c ← rd t (b + ds.length)
      if c ≠ 64 then some false else startsAt t (b + ds.length + 1) de
  else if type = .varUnescaped then do
    let s1 ← startsAt t b ds
    let s2 ← if s1 then startsAt t (b + ds.length) [38, 64] else some false
    let s3 ← if s2 then startsAt t (b + ds.length + 2) de else some false
    if s3 then some true
    else if ds = [123, 123] ∧ de = [125, 125] then startsAt t b [123, 123, 123, 64, 125, 125, 125]
    else some false
  else some false

/-- The loop of `ShouldIterateObject` (mustache.c:605-667). -/
def shouldIterate (t : Bytes) : (fuel : Nat) → (input : Nat) → (ds de : Bytes) → Option (Option Bool)
  | 0, _, _, _ => none
  | fuel + 1, input, ds, de => do
    let tag ← nextTag t input ds de
    match tag.type, tag.begin, tag.fin with
    | .err, _, _ | .none, _, _ | .section, _, _ | .sectionEnd, _, _ => some (some false)
    | .delim, _, fin => match setDelimiters ((t.drop tag.content).take tag.len) with
      | .ok ds de => fin.bind fun fin => shouldIterate t fuel fin ds de
      | .fail => some (some false)
      | .overflow => some none
    | .var, b, fin | .varUnescaped, b, fin => do
      let b ← b
      let k ← isKeyExtensionVar t tag.type b ds de
      if k then some (some true) else fin.bind fun fin => shouldIterate t fuel fin ds de
    | _, _, fin => fin.bind fun fin => shouldIterate t fuel fin ds de

/-- What one iteration of the loop of `Render` needs to know of the tag's surroundings (mustache.c:685-702): the end of the content before the tag, and where to go on. -/
def bounds (t : Bytes) (tag : Tag) : Option (Option Nat × Option Nat) :=
  match isTagTypeRenderable tag.type, tag.begin, tag.fin with
  | false, some b, some e => do
    let s ← isTagStandalone t b e
    match s with
    | some (lb, le) => some (some lb, some le)
    | none => some (some b, some e)
  | _, b, e => some (b, e)

/-- The loop over the children of an array, or of an object that is iterated (mustache.c:820-852), from child `i` on, `n` to go; the last
argument is `cur_section_end`, which a call that ends without a closing tag leaves alone. `render st key` is the recursive call. -/
def iterate (render : St → Bytes → Option Res) (p : Path) : (n : Nat) → (i : Nat) → St → Option Nat → Option Res
  | 0, _, st, se => some (.ok st se)
  | n + 1, i, st, se₀ =>
    match get st.root p with
    | some (.cont _ .object ks) => do
      let c ← ks[i]?
      let k ← c.name
      match ← render { st with stack := some (p ++ [.key k]) :: st.stack } k with
      | .ok st se => iterate render p n (i + 1) st (se.or se₀)
      | r => some r
    | some (.cont _ .array _) => do
      match ← render { st with stack := some (p ++ [.idx i]) :: st.stack } (Str.natText i) with
      | .ok st se => iterate render p n (i + 1) st (se.or se₀)
      | r => some r
    | _ => none

/-- The section tag (mustache.c:744-872) with `var` already on the stack: `none` for the variable, or the way it is rendered. -/
inductive Plan where
  | once (skip : Bool)
  | each (p : Path) (n : Nat) (skip : Bool)
  | fail
  | overflow

/-- The decisions at a section tag (mustache.c:752-870). -/
def plan (t : Bytes) (st : St) (input : Nat) (inv skip : Bool) : Option Path → Option Plan
  | none => some (.once (skip || !inv))
  | some p =>
    match get st.root p with
    | none => none
    | some (.prim _ .bool v) => some (.once (skip || ((!(v == Json.litTrue)) ^^ inv)))
    | some (.prim _ _ _) => some .fail
    | some (.cont _ .object ks) => do
      let it ← shouldIterate t (t.length + 1) input st.ds st.de
      match it with
      | none => some .overflow
      | some false => some (.once (skip || inv))
      | some true => if ks.length > 0 then some (.each p ks.length (skip || inv)) else some (.once (!inv))
    | some (.cont _ .array ks) => if ks.length > 0 then some (.each p ks.length (skip || inv)) else some (.once (!inv))

/-- `Render` (mustache.c:669-897); `input` is NULL after a section that was not closed; `inSection` is `section != NULL`. The result's state is that of
the shared `out`, data, stack and delimiters. -/
def render (rt : RealText) (t : Bytes) : (fuel : Nat) → St → (input : Option Nat) → (jsonKey : Option Bytes) → (skip inSection : Bool) → Option Res
  | 0, _, _, _, _, _ => none
  | _ + 1, st, none, _, _, _ => some (.fail st)
  | fuel + 1, st, some input, jsonKey, skip, inSection => do
    let tag ← nextTag t input st.ds st.de
    let b ← bounds t tag
    let before ← contentBytes t input skip b.1
    let st := { st with out := st.out ++ before }
    let content := (t.drop tag.content).take tag.len
    match tag.type with
    | .err => some (.fail st)
    | .delim => match setDelimiters content with
      | .ok ds de => render rt t fuel { st with ds, de } b.2 jsonKey skip inSection
      | .fail => some (.fail st)
      | .overflow => some (.overflow st)
    | .comment => render rt t fuel st b.2 jsonKey skip inSection
    | .none => some (.ok st none)
    | .sectionEnd =>
      if !inSection then some (.fail st)
      else some (.ok { st with stack := st.stack.tail } b.2)
    | .section | .inverted => do
      let var ← lookupVariable st content
      let st := { st with stack := var :: st.stack }
      let input ← b.2
      let pl ← plan t st input (tag.type == .inverted) skip var
      match pl with
      | .fail => some (.fail st)
      | .overflow => some (.overflow st)
      | .once skip' => do
        match ← render rt t fuel st (some input) none skip' true with
        | .ok st se => render rt t fuel st se jsonKey skip inSection
        | r => some r
      | .each p n skip' => do
        match ← iterate (fun st k => render rt t fuel st (some input) (some k) skip' true) p n 0 st none with
        | .ok st se => render rt t fuel st se jsonKey skip inSection
        | r => some r
    | conv =>
      if skip then render rt t fuel st b.2 jsonKey skip inSection
      else if content.length > 0 then do
        let r ← renderVariable rt st content conv jsonKey
        let st := { st with root := r.2 }
        match r.1 with
        | .ok text => render rt t fuel { st with out := st.out ++ text } b.2 jsonKey skip inSection
        | .fail => some (.fail st)
        | .abort => some (.abort st)
        | .exit => some (.exit st)
      else render rt t fuel { st with out := st.out ++ st.ds ++ st.de } b.2 jsonKey skip inSection

/-- `MustacheRender` (mustache.c:899-920) with a non-NULL hash, appending to `out`. -/
def mustacheRender (rt : RealText) (out template : Bytes) (hash : Elem) : Option Res :=
  render rt template (template.length + 1) { out, root := hash, stack := [some []], ds := [123, 123], de := [125, 125] } (some 0) none false false

end Mustache
