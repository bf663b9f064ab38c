import Verif.Model.StrCopy
import Verif.Model.Writer
/-! # Model of search and replace, tokens, trimming, case and substrings (libutils/string_lib.c)

A `const char *` argument is the list of its bytes before the terminator; a string modified in place lives in an allocation. -/

namespace Str

/-- `strstr(s, pat)` of the C library (C11 7.24.5.7), as an offset. -/
def strstr : List UInt8 → List UInt8 → Option Nat
  | [], pat => if pat = [] then some 0 else none
  | c :: s, pat => if pat.isPrefixOf (c :: s) then some 0 else (strstr s pat).map (· + 1)

/-- The loop of `SearchAndReplace` (string_lib.c:335-349); `src` is the text from `source_ptr` on. The result is the C string with its
terminator. -/
def sarLoop (search replace : List UInt8) (w : Writer.W) (src : List UInt8) : Nat → Option (List UInt8)
  | 0 => none
  | fuel + 1 =>
    match strstr src search with
    | none => do
      let (w, _) ← Writer.write w src
      Writer.dataZ w
    | some i => do
      let (w, _) ← Writer.writeLen w (src ++ [0]) i
      let (w, _) ← Writer.write w replace
      sarLoop search replace w (src.drop (i + search.length)) fuel

/-- `SearchAndReplace` (string_lib.c:319-350), for non-NULL arguments. -/
def searchAndReplace (source search replace : List UInt8) : Option (List UInt8) :=
  if search = [] then some (source ++ [0]) else sarLoop search replace Writer.stringWriter source (source.length + 1)

/-- The replacement loop of `StringReplace` (string_lib.c:1047-1066). `s` is the C string in `buf`. The inner `none` is the overflow return. -/
def replaceLoop (buf : List (Option UInt8)) (bufSize : Nat) (s find replace : List UInt8) (tmp : List (Option UInt8)) (tmpLen bufIdx p : Nat) :
    Nat → Option (Option (List (Option UInt8) × Nat × Nat))
  | 0 => none
  | fuel + 1 =>
    if tmpLen + (p - bufIdx) + replace.length ≥ bufSize then some none
    else do
      let tmp ← CMem.memcpy tmp tmpLen buf bufIdx (p - bufIdx)
      let tmp ← CMem.store tmp (tmpLen + (p - bufIdx)) replace
      match strstr (s.drop (p + find.length)) find with
      | none => some (some (tmp, tmpLen + (p - bufIdx) + replace.length, p + find.length))
      | some j => replaceLoop buf bufSize s find replace tmp (tmpLen + (p - bufIdx) + replace.length) (p + find.length) (p + find.length + j) fuel

/-- The end of `StringReplace` (string_lib.c:1064-1077): block and result. -/
def replaceFinish (buf : List (Option UInt8)) (bufSize : Nat) (s : List UInt8) :
    Option (List (Option UInt8) × Nat × Nat) → Option (List (Option UInt8) × Int)
  | none => some (buf, -1)
  | some (tmp, tmpLen, bufIdx) =>
    if tmpLen + (s.length - bufIdx) ≥ bufSize then some (buf, -1)
    else do
      let tmp ← CMem.memcpy tmp tmpLen buf bufIdx (s.length - bufIdx + 1)
      let buf ← CMem.memcpy buf 0 tmp 0 (tmpLen + (s.length - bufIdx) + 1)
      some (buf, ((tmpLen + (s.length - bufIdx) : Nat) : Int))

/-- `StringReplace` (string_lib.c:1025-1077). `tmp` is a variable-length array of `buf_size` uninitialised bytes. -/
def stringReplace (buf : List (Option UInt8)) (bufSize : Nat) (find replace : List UInt8) : Option (List (Option UInt8) × Int) :=
  if find = [] then none                                          -- assert, line 1028
  else do
    let s ← CMem.str buf
    match strstr s find with
    | none => some (buf, 0)
    | some p => do
      let r ← replaceLoop buf bufSize s find replace (List.replicate bufSize none) 0 0 p (s.length + 1)
      replaceFinish buf bufSize s r

/-- `strchr(seps, c)` as a condition: the terminator of `seps` is found too. -/
def isSep (seps : List UInt8) (c : UInt8) : Bool := c == 0 || seps.contains c

/-- The loop of `StringCountTokens` (string_lib.c:1107-1121) over the `len` bytes. -/
def countLoop (seps : List UInt8) : List UInt8 → Nat → Bool → Nat
  | [], n, _ => n
  | c :: s, n, inToken => if isSep seps c then countLoop seps s n false else countLoop seps s (if !inToken then n + 1 else n) true

/-- `StringCountTokens` (string_lib.c:1102-1124); `str` is the `len` bytes. -/
def countTokens (str seps : List UInt8) : Nat := countLoop seps str 0 false

/-- The loop of `StringNextToken` (string_lib.c:1130-1150) with `i` bytes done; `start = none` is `found == false`. The result is the
`StringRef` as offset and length, `none` is the NULL reference. -/
def nextLoop (seps : List UInt8) : List UInt8 → Nat → Option Nat → Option (Nat × Nat)
  | [], i, start =>
    match start with
    | some st => some (st, i - st)
    | none => none
  | c :: s, i, start =>
    if isSep seps c then
      match start with
      | some st => some (st, i - st)
      | none => nextLoop seps s (i + 1) none
    else
      match start with
      | some st => nextLoop seps s (i + 1) (some st)
      | none => nextLoop seps s (i + 1) (some i)

/-- `StringNextToken` (string_lib.c:1126-1158). -/
def nextToken (str seps : List UInt8) : Option (Nat × Nat) := nextLoop seps str 0 none

/-- `StringGetToken` (string_lib.c:1160-1176); offsets are relative to the `str` argument, `off` is where the current `str` is. -/
def getTokenLoop (seps : List UInt8) (str : List UInt8) (off : Nat) (ref : Option (Nat × Nat)) : Nat → Option (Nat × Nat)
  | 0 => ref.map fun (d, l) => (off + d, l)
  | index + 1 =>
    match ref with
    | none => none
    | some (d, l) => getTokenLoop seps (str.drop (d + l)) (off + d + l) (nextToken (str.drop (d + l)) seps) index

/-- `StringGetToken` (string_lib.c:1160-1176). -/
def getToken (str : List UInt8) (index : Nat) (seps : List UInt8) : Option (Nat × Nat) :=
  getTokenLoop seps str 0 (nextToken str seps) index

/-- `strchr(sp, c)` for `c ≠ 0`, as an offset. -/
def strchr (s : List UInt8) (c : UInt8) : Option Nat := s.findIdx? (· == c)

/-- The filling loop of `String2StringArray` (string_lib.c:1204-1224); `arr` is the calloc'ed array (`none` = NULL) with cell `i` next; each entry
is the block allocated for it. -/
def arrayLoop (sep : UInt8) (arr : List (Option (List (Option UInt8)))) (i : Nat) (sp : List UInt8) : Nat → Option (List (Option (List (Option UInt8))))
  | 0 => none
  | fuel + 1 =>
    let len := match strchr sp sep with
      | some e => e
      | none => sp.length
    (CMem.store (List.replicate (len + 1) (some 0)) 0 (sp.take len)).bind fun blk =>
      if i < arr.length then
        match strchr sp sep with
        | some e => arrayLoop sep (arr.set i (some blk)) (i + 1) (sp.drop (e + 1)) fuel
        | none => some (arr.set i (some blk))
      else none

/-- `String2StringArray` (string_lib.c:1179-1227) for a non-NULL string and a separator other than NUL. -/
def string2StringArray (str : List UInt8) (sep : UInt8) : Option (List (Option (List (Option UInt8)))) :=
  arrayLoop sep (List.replicate ((str.filter (· == sep)).length + 2) none) 0 str (str.length + 2)

/-- The loop of `FreeStringArray` (string_lib.c:1238-1242), from cell `i`: the blocks freed, in this order; the cell is then set to NULL. -/
def freeArrayLoop {α : Type} (arr : List (Option α)) (i : Nat) : Nat → Option (List α)
  | 0 => none
  | fuel + 1 =>
    (CMem.read arr i).bind fun c =>
      match c with
      | none => some []
      | some b => (CMem.write arr i none).bind fun arr => (freeArrayLoop arr (i + 1) fuel).map fun r => b :: r

/-- `FreeStringArray` (string_lib.c:1229-1245): the strings freed (the array itself is freed last); nothing for NULL. -/
def freeStringArray {α : Type} : Option (List (Option α)) → Option (List α)
  | none => some []
  | some arr => freeArrayLoop arr 0 (arr.length + 1)

end Str
