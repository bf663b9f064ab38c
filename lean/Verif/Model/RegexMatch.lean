import Verif.Spec.RegexMatch
import Verif.Model.Buffer
import Verif.Model.Json
/-! # Model of libutils/regex.c and of `StringCaptureData` (libutils/json.c)

The PCRE library appears through its documented interface (`exec`, `table`), driven by what the pattern finds. Texts are shorter than
2^31 bytes. Compilation failures give `none` for the pattern. -/
namespace RegexMatch
open RegexSpec

/-- `pcre_exec` on `slots * 3` integers: the answer is the number of the highest group that took part plus one, 0 if that is more than
`slots`, negative when there is no match; the vector holds the offsets of the first `slots` groups, -1 for those that took no part. The
last third of the vector is workspace and not shown. On no match the vector is left as it was. -/
def exec (p : Pattern) (s : Bytes) (slots : Nat) (before : List Int) : Int × List Int :=
  match p.find s with
  | none => (-1, before)
  | some m =>
    let top := m.length - (m.reverse.takeWhile (· == none)).length
    (if top ≤ slots then (top : Int) else 0,
     (List.range slots).flatMap fun i => match m.getD i none with
       | some (a, b) => [(a : Int), (b : Int)]
       | none => [-1, -1])

/-- `PCRE_INFO_NAMEENTRYSIZE`: two bytes of number, the longest name, its terminator. -/
def entrySize (p : Pattern) : Nat := (p.names.map fun n => n.2.length).foldl max 0 + 3

/-- `PCRE_INFO_NAMETABLE`. -/
def table (p : Pattern) : Bytes :=
  p.names.flatMap fun n => [UInt8.ofNat (n.1 / 256), UInt8.ofNat (n.1 % 256)] ++ n.2 ++ List.replicate (entrySize p - 2 - n.2.length) 0

/-- `STRING_MATCH_OVECCOUNT` / 3 (regex.c:33). -/
def slots10 : Nat := 10

/-- `StringMatchWithPrecompiledRegex` (regex.c:55-88): result, `*start`, `*end` (converted to `size_t`). -/
def matchPre (p : Pattern) (s : Bytes) : Option (Bool × Int × Int) :=
  let (result, ov) := exec p s slots10 (List.replicate 20 0)
  if result ≠ 0 then
    match ov[0]?, ov[1]? with
    | some a, some b => some (decide (result ≥ 0), a, b)
    | _, _ => none
  else some (decide (result ≥ 0), 0, 0)

/-- `StringMatch` (regex.c:90-104): no offsets are stored when the pattern does not compile. -/
def stringMatch (p : Option Pattern) (s : Bytes) : Option (Bool × Option (Int × Int)) :=
  match p with
  | none => some (false, none)
  | some p => (matchPre p s).map fun (r, a, b) => (r, some (a, b))

/-- `StringMatchFullWithPrecompiledRegex` (regex.c:121-133). -/
def matchFullPre (p : Pattern) (s : Bytes) : Option Bool :=
  (matchPre p s).map fun (r, a, b) => if r then a == 0 && b == (s.length : Int) else false

/-- `StringMatchFull` (regex.c:106-119). -/
def matchFull (p : Option Pattern) (s : Bytes) : Option Bool :=
  match p with
  | none => some false
  | some p => matchFullPre p s

/-- `RegexPartialMatch` (regex.c:278-284). -/
def partialMatch (p : Pattern) (s : Bytes) : Bool := decide ((exec p s slots10 []).1 ≥ 0)

/-- `CompareStringOrRegex` (regex.c:255-272); `compile` is `CompileRegex`; `compareTo` is `none` for NULL. -/
def compareStringOrRegex (compile : Bytes → Option Pattern) (value : Bytes) (compareTo : Option Bytes) (regex : Bool) : Option Bool :=
  match compareTo with
  | none => some true
  | some t =>
    if regex then
      if t ≠ [] then matchFull (compile t) value else some true
    else some (if t ≠ [] && t ≠ value then false else true)

/-- `BufferNewFrom(base + a, b - a)` where `mem` is what `base` points at; what the buffer then holds. A negative length asks for more memory
than there is. -/
def piece (mem : Bytes) (a b : Int) : Option Bytes :=
  if b - a < 0 then none
  else if b - a = 0 then (Buffer.newFrom [] 0).bind Buffer.data
  else if a < 0 then none
  else (Buffer.newFrom (mem.drop a.toNat) (b - a).toNat).bind Buffer.data

/-- The scan of the name table for group `i` (regex.c:187-199): `tab` is the table from `tabptr` on, `n` the number of entries left. -/
def scan (size : Nat) (i : Nat) : Nat → Bytes → Option (Option Bytes)
  | 0, _ => some none
  | n + 1, tab =>
    match tab with
    | hi :: lo :: rest =>
      if hi.toNat * 256 + lo.toNat = i then ((Buffer.newFrom rest (size - 3)).bind Buffer.data).map some
      else scan size i n (tab.drop size)
    | _ => none

/-- Name or number of group `i` (regex.c:183-211), when names are asked for. -/
def groupLabel (p : Pattern) (i : Nat) : Option Bytes :=
  match (if 0 < p.names.length then scan (entrySize p) i p.names.length (table p) else some none) with
  | none => none
  | some (some n) => some n
  | some none =>
    match Buffer.newWithCapacity 4096 with
    | none => none
    | some b => (Buffer.appendF b (Str.natText i)).bind Buffer.data

/-- The loop over the groups (regex.c:181-218): what is appended for groups `i`, `i + 1`, … (`n` of them). -/
def groupLoop (p : Pattern) (mem : Bytes) (names : Bool) (ov : List Int) : Nat → Nat → Option (List Bytes)
  | 0, _ => some []
  | n + 1, i =>
    match ov[2 * i]?, ov[2 * i + 1]? with
    | some a, some b =>
      match piece mem a b with
      | none => none
      | some d =>
        match groupLoop p mem names ov n (i + 1) with
        | none => none
        | some rest =>
          if names then (groupLabel p i).map fun l => l :: d :: rest
          else some (d :: rest)
    | _, _ => none

/-- `StringMatchCapturesWithPrecompiledRegex` (regex.c:144-222): `some none` is NULL. -/
def capturesPre (p : Pattern) (s : Bytes) (names : Bool) : Option (Option (List Bytes)) :=
  let (result, ov) := exec p s (p.groups + 1) []
  if result ≤ 0 then some none
  else (groupLoop p (s ++ [0]) names ov (p.groups + 1) 0).map some

/-- `StringMatchCaptures` (regex.c:234-252). -/
def stringMatchCaptures (p : Option Pattern) (s : Bytes) (names : Bool) : Option (Option (List Bytes)) :=
  match p with
  | none => some none
  | some p => capturesPre p s names

/-- The loop of `StringCaptureData` over the pairs (json.c:2885-2891). -/
def pairLoop : List Json.Elem → List Bytes → List Json.Elem
  | kids, k :: v :: rest => pairLoop (Json.appendElement kids k (Json.stringCreate v)) rest
  | kids, _ => kids

/-- `StringCaptureData` (json.c:2857-2897): children of the object, `some none` for NULL. -/
def captureData (p : Option Pattern) (s : Bytes) : Option (Option (List Json.Elem)) :=
  match stringMatchCaptures p s true with
  | none => none
  | some none => some none
  | some (some l) => if l.length = 0 then some none else some (some (Json.removeKey (pairLoop [] l) [48]).1)

end RegexMatch
