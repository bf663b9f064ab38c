import Mathlib.Data.List.Perm.Basic
/-! # Model of the memory of pcre_wrap.c's jobs and of `BufferSearchAndReplace`

The texts are modelled in Model/PcreWrap.lean; here only which blocks are allocated, with every allocation and library call free to fail. -/
namespace PcreJob

/-- The heap: blocks allocated, the next block to hand out (blocks are not reused), and which of the coming allocations succeed
(all, when the plan is used up). -/
structure H where
  live : List Nat
  next : Nat
  plan : List Bool

/-- `malloc`, `calloc`: NULL is `none`. -/
def malloc (h : H) : H × Option Nat :=
  match h.plan with
  | false :: rest => ({ h with plan := rest }, none)
  | _ => ({ live := h.next :: h.live, next := h.next + 1, plan := h.plan.tail }, some h.next)

/-- A block that some library call allocated. -/
def grant (h : H) : H × Nat := ({ h with live := h.next :: h.live, next := h.next + 1 }, h.next)

/-- `free`. -/
def free (h : H) (p : Nat) : Option H := if p ∈ h.live then some { h with live := h.live.erase p } else none

/-- `realloc`: a new block, or NULL and the old block stays. -/
def realloc (h : H) (p : Nat) : Option (H × Option Nat) := do
  let (h, q) := malloc h
  match q with
  | none => if p ∈ h.live then some (h, none) else none
  | some q => (free h p).map fun h => (h, some q)

/-- `pcre_wrap_substitute` (pcre_wrap.h:41-48) and `pcre_wrap_job` (pcre_wrap.h:67-74): the blocks; `next` is always NULL because nothing chains jobs. -/
structure Job where
  self : Nat
  pattern : Option Nat
  hints : Option Nat
  /-- the structure and its text -/
  substitute : Option (Nat × Nat)

/-- What the PCRE library answers: whether the pattern compiles and, if not, the offset of the error; whether studying it gives hints or an error;
the result of `pcre_fullinfo` (0 or negative); and whether the replacement has a reference out of range. -/
structure Lib where
  compiles : Bool
  erroffset : Nat
  studyGivesHints : Bool
  studyFails : Bool
  fullinfo : Int
  badref : Bool

/-- `PCRE_WRAP_ERR_NOMEM`, `PCRE_WRAP_ERR_STUDY`, `PCRE_WRAP_WARN_BADREF` (pcre_wrap.h:22-26). -/
def errNomem : Int := -10
def errStudy : Int := -12
def warnBadref : Int := -14

/-- Freeing what may be NULL. -/
def freeOpt (h : H) : Option Nat → Option H
  | none => some h
  | some p => free h p

/-- The structure and its text (pcre_wrap.c:270-277). -/
def freeSubst (h : H) : Option (Nat × Nat) → Option H
  | none => some h
  | some (s, t) => do
    let h ← free h t
    free h s

/-- `pcre_wrap_free_job` (pcre_wrap.c:251-281). -/
def freeJob (h : H) (j : Job) : Option H := do
  let h ← freeOpt h j.pattern
  let h ← freeOpt h j.hints
  let h ← freeSubst h j.substitute
  free h j.self

/-- `pcre_wrap_compile_replacement` (pcre_wrap.c:87-249): allocations and the error code, `err` being what was there before. -/
def compileReplacement (h : H) (lib : Lib) (err : Int) : Option (H × Option (Nat × Nat) × Int) := do
  let (h, r) := malloc h
  match r with
  | none => some (h, none, errNomem)
  | some r =>
    let (h, t) := malloc h
    match t with
    | none => do
      let h ← free h r
      some (h, none, errNomem)
    | some t => some (h, some (r, t), if lib.badref then warnBadref else err)

/-- `pcre_wrap_compile` from `pcre_fullinfo` on (pcre_wrap.c:325-341). -/
def compileRest (h : H) (lib : Lib) (j : Job) : Option (H × Option Job × Int) := do
  if lib.fullinfo < 0 then
    let h ← freeJob h j
    some (h, none, lib.fullinfo)
  else
    let (h, s, err) ← compileReplacement h lib lib.fullinfo
    match s with
    | none => do
      let h ← freeJob h j
      some (h, none, err)
    | some s => some (h, some { j with substitute := some s }, err)

/-- `pcre_wrap_compile` (pcre_wrap.c:283-341): the job or NULL, and `*errptr`. `pcre_compile` stores the offset of the error in `*errptr`. -/
def compile (h : H) (lib : Lib) : Option (H × Option Job × Int) := do
  let (h, self) := malloc h
  match self with
  | none => some (h, none, errNomem)
  | some self =>
    if lib.compiles = false then
      let h ← freeJob h ⟨self, none, none, none⟩
      some (h, none, lib.erroffset)
    else
      let (h, p) := grant h
      if lib.studyFails = true then
        let h ← freeJob h ⟨self, some p, none, none⟩
        some (h, none, errStudy)
      else if lib.studyGivesHints = true then
        let (h, s) := grant h
        compileRest h lib ⟨self, some p, some s, none⟩
      else compileRest h lib ⟨self, some p, none, none⟩

/-- The loop of `pcre_wrap_execute` (pcre_wrap.c:370-441): `n` matches to come, `cur` stored of room `max`. `none` inside: out of memory. -/
def matchLoop (h : H) (block cur max : Nat) : Nat → Option (H × Option Nat)
  | 0 => some (h, some block)
  | n + 1 =>
    if cur + 1 ≥ max then do
      let (h, q) ← realloc h block
      match q with
      | none => do
        let h ← free h block
        some (h, none)
      | some q => matchLoop h q (cur + 1) (max * 16 / 10) n
    else matchLoop h block (cur + 1) max n

/-- `pcre_wrap_execute` (pcre_wrap.c:343-501), for a complete job: `n` matches are found and the last `pcre_exec` answered `last`.
The number returned and the block of the result. -/
def execute (h : H) (n : Nat) (last : Int) : Option (H × Int × Option Nat) := do
  let (h, m) := malloc h
  match m with
  | none => some (h, errNomem, none)
  | some m => do
    let (h, m) ← matchLoop h m 0 40 n
    match m with
    | none => some (h, errNomem, none)
    | some m =>
      if last < -1 then do
        let h ← free h m
        some (h, last, none)
      else do
        let (h, r) := malloc h
        match r with
        | none => do
          let h ← free h m
          some (h, errNomem, none)
        | some r => do
          let h ← free h m
          some (h, n, some r)

/-- `pcre_wrap_strerror` (pcre_wrap.c:21-54). -/
def strerror (e : Int) : String :=
  if e < 0 then
    if e = -6 then "(pcre:) No memory"
    else if e = -2 then "(pcre:) NULL code or subject or ovector"
    else if e = -3 then "(pcre:) Unrecognized option bit"
    else if e = -4 then "(pcre:) Bad magic number in code"
    else if e = -5 then "(pcre:) Bad node in pattern"
    else if e = -7 then "(pcre:) Fire in power supply"
    else if e = -1 then "(pcre:) Water in power supply"
    else if e = -10 then "(pcre_wrap:) No memory"
    else if e = -11 then "(pcre_wrap:) Syntax error while parsing command"
    else if e = -12 then "(pcre_wrap:) PCRE error while studying the pattern"
    else if e = -13 then "(pcre_wrap:) Bad job - NULL job, pattern or substitute"
    else if e = -14 then "(pcre_wrap:) Backreference out of range"
    else "Unknown error"
  else "(pcre_wrap:) Everything's just fine. Thanks for asking."

/-- `BufferSearchAndReplace` (buffer.c:442-469): the message (NULL is `none`) and whether the buffer was set. The buffer's own block is not modelled. -/
def searchAndReplace (h : H) (lib : Lib) (n : Nat) (last : Int) : Option (H × Option String × Bool) := do
  let (h, job, err) ← compile h lib
  match job with
  | none => some (h, some (strerror err), false)
  | some j => do
    let (h, err, r) ← execute h n last
    if err < 0 then some (h, some (strerror err), false)
    else
      match r with
      | none => none
      | some r => do
        let h ← free h r
        let h ← freeJob h j
        some (h, none, true)

end PcreJob
