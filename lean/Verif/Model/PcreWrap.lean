import Verif.Model.Mem
/-! # Model of libutils/pcre_wrap.c: Perl-style search and replace, as used by `BufferSearchAndReplace`

The PCRE library is a parameter: what `pcre_exec` answers for each start offset on the subject at hand.  `none` is undefined behaviour (an access outside an array or an
allocation, a signed overflow).  Memory allocation succeeds. -/
namespace PcreWrap

abbrev Bytes := List UInt8

/-- `PCRE_WRAP_MAX_SUBMATCHES` (libutils/pcre_wrap.h:18). -/
def maxSub : Nat := 33

def INT_MAX : Nat := 2 ^ 31 - 1

/-- `pcre_wrap_substitute` (libutils/pcre_wrap.h:44-51): `text` are the bytes written to the text so far (the allocation has `length + 1` zeroed bytes). `refnum` becomes `backrefs`. -/
structure Subst where
  text : Bytes := []
  refnum : Nat := 0
  blockOffset : List Nat := List.replicate maxSub 0
  blockLength : List Nat := List.replicate maxSub 0
  backref : List Nat := List.replicate maxSub 0
  count : List Nat := List.replicate (maxSub + 2) 0
  err : Bool := false
  deriving DecidableEq, Repr

/-- Storing in an array of fixed size. -/
def store (l : List Nat) (i v : Nat) : Option (List Nat) := if i < l.length then some (l.set i v) else none

/-- Writing the next byte of the text; the allocation has `length + 1` bytes. -/
def Subst.put (length : Nat) (s : Subst) (c : UInt8) : Option Subst := if s.text.length < length + 1 then some { s with text := s.text ++ [c] } else none

def isdigit (c : UInt8) : Bool := 48 ≤ c && c ≤ 57

/-- The loop over the digits of a reference (libutils/pcre_wrap.c:189-192): the text behind `sourcepos`, which is at the character before. Returns the value and the text from
the first character that is no digit. -/
def digits (v : Nat) : Bytes → Option (Nat × Bytes)
  | [] => some (v, [])
  | c :: cs => if isdigit c then if v * 10 + c.toNat ≤ INT_MAX then digits (v * 10 + (c.toNat - 48)) cs else none else some (v, c :: cs)

/-- `strchr("123456789", c)` (libutils/pcre_wrap.c:132). -/
def oneToNine (c : UInt8) : Bool := 49 ≤ c && c ≤ 57

/-- `strchr("tnrfae0", c)` and the switch (libutils/pcre_wrap.c:141-166). -/
def control (c : UInt8) : Option UInt8 :=
  if c = 116 then some 9 else if c = 110 then some 10 else if c = 114 then some 13 else if c = 102 then some 12
  else if c = 97 then some 7 else if c = 101 then some 27 else if c = 48 then some 0 else none

/-- The end of handling a reference (libutils/pcre_wrap.c:223-231). -/
def refDone (s : Subst) : Option Subst :=
  (s.backref[s.refnum]?).bind fun r =>
  if r < maxSub + 2 then
    (s.count[r]?).bind fun k =>
    (store s.count r (k + 1)).bind fun ct =>
    (store s.blockOffset (s.refnum + 1) s.text.length).bind fun bo =>
    some { s with count := ct, blockOffset := bo, refnum := s.refnum + 1 }
  else some { s with err := true }

/-- The start of handling a reference (libutils/pcre_wrap.c:185). -/
def refStart (s : Subst) : Option Subst :=
  (s.blockOffset[s.refnum]?).bind fun o => (store s.blockLength s.refnum (s.text.length - o)).bind fun bl => some { s with blockLength := bl }

theorem digits_length : ∀ (l : Bytes) (v : Nat) {r : Nat × Bytes}, digits v l = some r → r.2.length ≤ l.length := by
  intro l
  induction l with
  | nil => intro v r h; cases h; exact Nat.le_refl _
  | cons c l ih =>
    intro v r h
    rw [digits] at h
    split at h
    · split at h
      · have := ih _ h; simp; omega
      · cases h
    · cases h; exact Nat.le_refl _

/-- The loop of `pcre_wrap_compile_replacement` (libutils/pcre_wrap.c:126-238): the replacement from `sourcepos` on. The last character is treated apart because the text then has
its terminator at `sourcepos + 1`. -/
def compileLoop (length capturecount : Nat) (quoted : Bool) (s : Subst) (src : Bytes) : Option Subst :=
  match src with
  | [] => some s
  | [c] => if c = 92 && !quoted then some s else s.put length c
  | c :: d :: rest =>
    if c = 92 && !oneToNine d then
      if quoted then (s.put length c).bind fun s => compileLoop length capturecount false s (d :: rest)
      else
        match control d with
        | some x => (s.put length x).bind fun s => compileLoop length capturecount false s rest
        | none => compileLoop length capturecount true s (d :: rest)
    else if (c = 92 || c = 36) && !quoted then
      (refStart s).bind fun s =>
      if isdigit d then
        (s.backref[s.refnum]?).bind fun v =>
        match h : digits v (d :: rest) with
        | none => none
        | some r =>
          (store s.backref s.refnum r.1).bind fun br =>
          (refDone { s with backref := br, err := s.err || decide (r.1 > capturecount) }).bind fun s => compileLoop length capturecount false s r.2
      else if c = 36 && (d = 39 || d = 96 || d = 43 || d = 38) then
        (store s.backref s.refnum (if d = 43 then capturecount else if d = 38 then 0 else if d = 39 then maxSub + 1 else maxSub)).bind fun br =>
        (refDone { s with backref := br }).bind fun s => compileLoop length capturecount false s rest
      else (s.put length c).bind fun s => compileLoop length capturecount false s (d :: rest)
    else (s.put length c).bind fun s => compileLoop length capturecount false s (d :: rest)
termination_by src.length
decreasing_by
  all_goals simp only [List.length_cons]
  all_goals first
    | omega
    | (have := digits_length _ _ h; simp only [List.length_cons] at this; omega)

/-- `pcre_wrap_compile_replacement` (libutils/pcre_wrap.c:87-249). -/
def compile (trivial : Bool) (capturecount : Nat) (replacement : Bytes) : Option Subst :=
  (if trivial then some { text := replacement } else compileLoop replacement.length capturecount false {} replacement).bind fun s =>
  (s.blockOffset[s.refnum]?).bind fun o => (store s.blockLength s.refnum (s.text.length - o)).bind fun bl => some { s with blockLength := bl }

/-- What `pcre_exec` answers: a code that is not positive (-1 for no match), or the pairs of offsets it stored (`none` for an unset group: both offsets are -1). -/
inductive Answer where
  | code (c : Int)
  | found (l : List (Option (Nat × Nat)))
  deriving DecidableEq, Repr

abbrev Exec := Nat → Answer

/-- `strlen` of the text: up to its first NUL. -/
def textLen (s : Subst) : Nat := (s.text.takeWhile (· ≠ 0)).length

def pairLen : Option (Nat × Nat) → Int
  | none => 0
  | some (a, b) => (b : Int) - a

/-- The sum over the submatches (libutils/pcre_wrap.c:383-392). -/
def subSizes (count : List Nat) : List (Option (Nat × Nat)) → Nat → Option Int
  | [], _ => some 0
  | p :: ps, i => (count[i]?).bind fun k => (subSizes count ps (i + 1)).bind fun r => some (pairLen p * k + r)

/-- What a match adds to `newsize` (libutils/pcre_wrap.c:383-406); `len` is `subject_length`. (`size_t` arithmetic, here on integers: see `execute`.) -/
def matchSize (s : Subst) (len : Nat) (l : List (Option (Nat × Nat))) : Option Int :=
  if l.length ≤ maxSub then
    (subSizes s.count l 0).bind fun a =>
    (s.count[maxSub]?).bind fun kpre =>
    (s.count[maxSub + 1]?).bind fun kpost =>
    match l with
    | some (b, e) :: _ => some (a + ((textLen s : Int) - pairLen (some (b, e))) + b * kpre + ((len : Int) - e) * kpost)
    | _ => none
  else none

/-- The searching loop (libutils/pcre_wrap.c:369-446): the matches in order, `newsize`, and the last answer's code (1 for a match). The first number bounds the rounds:
running out of it is not terminating. -/
def search (exec : Exec) (s : Subst) (len : Nat) (isGlobal : Bool) : Nat → Nat → Int → Option (List (List (Option (Nat × Nat))) × Int × Int)
  | 0, _, _ => none
  | n + 1, offset, newsize =>
    match exec offset with
    | .code c => some ([], newsize, c)
    | .found l =>
      (matchSize s len l).bind fun d =>
      if !isGlobal then some ([l], newsize + d, 1)
      else
        match l with
        | some (_, e) :: _ =>
          if e = offset then
            if offset < len then (search exec s len isGlobal n (offset + 1) (newsize + d)).bind fun r => some (l :: r.1, r.2)
            else some ([l], newsize + d, 1)
          else (search exec s len isGlobal n e (newsize + d)).bind fun r => some (l :: r.1, r.2)
        | _ => none

/-- `memcpy` to the result: the bytes written so far, in an allocation of `size` bytes, and the source's range. -/
def copyTo (size : Nat) (out src : Bytes) (off len : Nat) : Option Bytes :=
  if off + len ≤ src.length ∧ out.length + len ≤ size then some (out ++ (src.drop off).take len) else none

/-- The segments of the replacement for one match (libutils/pcre_wrap.c:475-496). -/
def segments (s : Subst) (subject : Bytes) (size : Nat) (l : List (Option (Nat × Nat))) : Nat → Nat → Bytes → Option Bytes
  | 0, _, out => some out
  | n + 1, seg, out =>
    (s.blockOffset[seg]?).bind fun bo =>
    (s.blockLength[seg]?).bind fun bl =>
    (copyTo size out s.text bo bl).bind fun out =>
    (if seg ≠ s.refnum then
      (s.backref[seg]?).bind fun r =>
      if r < maxSub + 2 ∧ r < l.length then
        match l[r]? with
        | some (some (a, b)) => if b > a then copyTo size out subject a (b - a) else some out
        | _ => some out
      else some out
    else some out).bind fun out => segments s subject size l n (seg + 1) out

/-- The copying loop (libutils/pcre_wrap.c:468-500). -/
def emit (s : Subst) (subject : Bytes) (size : Nat) : List (List (Option (Nat × Nat))) → Nat → Bytes → Option Bytes
  | [], offset, out => if offset ≤ subject.length then copyTo size out subject offset (subject.length - offset) else none
  | l :: ls, offset, out =>
    match l with
    | some (b, e) :: _ =>
      if offset ≤ b then
        (copyTo size out subject offset (b - offset)).bind fun out =>
        (segments s subject size l (s.refnum + 1) 0 out).bind fun out => emit s subject size ls e out
      else none
    | _ => none

/-- The outcome of `pcre_wrap_execute`: a negative code, or the number of matches and the result, whose bytes may be uninitialised. -/
inductive Outcome where
  | error (c : Int)
  | ok (count : Nat) (result : List (Option UInt8))
  deriving DecidableEq, Repr

/-- `pcre_wrap_execute` (libutils/pcre_wrap.c:343-501). `newsize` is computed modulo 2^64. -/
def execute (exec : Exec) (s : Subst) (isGlobal : Bool) (subject : Bytes) : Option Outcome :=
  (search exec s subject.length isGlobal (subject.length + 2) 0 subject.length).bind fun (ls, newsize, code) =>
  if code < -1 then some (.error code)
  else
    let n := (newsize % 2 ^ 64).toNat
    (emit s subject (n + 1) ls 0 []).bind fun out =>
    some (.ok ls.length ((out.map some ++ List.replicate (n - out.length) none).take n))

/-- `pcre_wrap_parse_perl_options` (libutils/pcre_wrap.c:56-85): the flags for the search and replace itself (global, trivial). -/
def options (o : Bytes) : Bool × Bool := (o.contains 103, o.contains 84)

/-- `pcre_wrap_compile` and `pcre_wrap_execute` as in `BufferSearchAndReplace` (libutils/buffer.c:442-469), for a pattern that compiles, with `capturecount` groups and the matcher
`exec`: the buffer's new contents, or an error. -/
def searchAndReplace (exec : Exec) (capturecount : Nat) (opts replacement subject : Bytes) : Option Outcome :=
  (compile (options opts).2 capturecount replacement).bind fun s => execute exec s (options opts).1 subject

end PcreWrap
