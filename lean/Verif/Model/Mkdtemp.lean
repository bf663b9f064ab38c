import Verif.Model.Compat
/-! # Model of libcompat/mkdtemp.c -/
namespace Mkdtemp

abbrev Bytes := List UInt8
/-- The names that exist in the file system. -/
abbrev FS := Bytes → Bool

/-- The world: what other processes do to the file system before the `i`-th `mkdir`, and the errno with which that fails although the name is free. -/
structure World where
  change : Nat → FS → FS
  fail : Nat → Option Int

/-- The state of a call: the file system, the directories made, the descriptors closed and the names that were tried. -/
structure St where
  fs : FS
  made : List Bytes
  closed : List Int
  tried : List Bytes

/-- EEXIST and EINVAL. -/
def EEXIST : Int := 17
def EINVAL : Int := 22

/-- `snprintf(xxx, 7, "%06d", i)` for `i` up to 999999. -/
def six (i : Nat) : Bytes := [100000, 10000, 1000, 100, 10, 1].map fun p => UInt8.ofNat (48 + i / p % 10)

/-- `mkdir(path, 0700)`: 0, or the errno. -/
def mkdir (w : World) (i : Nat) (path : Bytes) (s : St) : Int × St :=
  let fs := w.change i s.fs
  if fs path then (EEXIST, { s with fs := fs, tried := s.tried ++ [path] })
  else
    match w.fail i with
    | some e => (e, { s with fs := fs, tried := s.tried ++ [path] })
    | none => (0, { s with fs := fun p => p = path || fs p, made := s.made ++ [path], tried := s.tried ++ [path] })

/-- What `mkdtemp` returns: the template or NULL with errno, the text in the template, and the state. -/
structure Out where
  errno : Option Int
  text : Bytes
  st : St

/-- The loop (mkdtemp.c:40-58) with `n` iterations left; `pre` is the text before `xxx`. The value `mkdir` returned is closed as if it were a descriptor. -/
def loop (w : World) (pre : Bytes) : Nat → Nat → Bytes → St → Out
  | 0, _, text, s => ⟨some EEXIST, text, s⟩
  | n + 1, i, _, s =>
    let r := mkdir w i (pre ++ six i) s
    if r.1 = 0 then ⟨none, pre ++ six i, { r.2 with closed := r.2.closed ++ [0] }⟩
    else if r.1 ≠ EEXIST then ⟨some r.1, pre ++ six i, r.2⟩
    else loop w pre n (i + 1) (pre ++ six i) r.2

/-- `mkdtemp` (mkdtemp.c:30-59) with the replacement `strrstr`; `none`: undefined behaviour. -/
def mkdtemp (w : World) (template : Bytes) (fs : FS) : Option Out := do
  let x ← Compat.strrstr template [88, 88, 88, 88, 88, 88]
  match x with
  | none => some ⟨some EINVAL, template, ⟨fs, [], [], []⟩⟩
  | some x =>
    if template.drop x ≠ [88, 88, 88, 88, 88, 88] then some ⟨some EINVAL, template, ⟨fs, [], [], []⟩⟩
    else some (loop w (template.take x) 1000000 0 template ⟨fs, [], [], []⟩)

end Mkdtemp
