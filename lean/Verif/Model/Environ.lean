import Verif.Model.Mem
/-! # Model of libcompat/unsetenv.c and of setenv_wrapper, putenv_wrapper (libutils/misc_lib.c) -/
namespace Environ

abbrev Bytes := List UInt8

/-- The array `environ`: pointers to strings, `none` is the null pointer that ends it. -/
abbrev Arr := List (Option Bytes)

/-- `strchr(name, '=') != 0`. -/
def hasEq (name : Bytes) : Bool := name.any (· == 61)

/-- `strncmp(name, *c, len) == 0 && ((*c)[len] == '=' || (*c)[len] == 0)` (unsetenv.c:101); `none`: a read outside of the string. -/
def isEntry (name s : Bytes) : Option Bool :=
  if s.take name.length = name then ((s ++ [0])[name.length]?).map fun c => c == 61 || c == 0 else some false

/-- The first loop of `unsetenv` (unsetenv.c:99-105) from cell `i`; `none`: a read outside of the array. -/
def find (name : Bytes) : Arr → Nat → Option Nat
  | [], _ => none
  | none :: _, i => some i
  | some s :: t, i => do
    let b ← isEntry name s
    if b then some i else find name t (i + 1)

/-- The second loop (unsetenv.c:108-111), on the cells from `c` on. -/
def shift : Arr → Option Arr
  | [] => none
  | none :: t => some (none :: t)
  | [some _] => none
  | some _ :: x :: t => do
    let r ← shift (x :: t)
    some (x :: r)

/-- `unsetenv` of SVR4 systems (unsetenv.c:85-114): the result and the array. -/
def unsetenv (name : Option Bytes) (env : Arr) : Option (Int × Arr) :=
  match name with
  | none => some (-1, env)
  | some name =>
    if name = [] ∨ hasEq name = true then some (-1, env)
    else do
      let i ← find name env 0
      let r ← shift (env.drop i)
      some (0, env.take i ++ r)

/-! ## The C library -/

/-- `getenv`: the value of the first variable of that name. -/
def getenv : List Bytes → Bytes → Option Bytes
  | [], _ => none
  | e :: es, name => if (name ++ [61]).isPrefixOf e then some (e.drop (name.length + 1)) else getenv es name

/-- `putenv` with a string `name=value`: the first variable of that name is replaced, otherwise one is added. -/
def putenv (name value : Bytes) : List Bytes → List Bytes
  | [] => [name ++ 61 :: value]
  | e :: es => if (name ++ [61]).isPrefixOf e then (name ++ 61 :: value) :: es else e :: putenv name value es

/-- `setenv` of the C library (POSIX). -/
def setenv (name value : Bytes) (overwrite : Bool) (env : List Bytes) : Int × List Bytes :=
  if name = [] ∨ hasEq name = true then (-1, env)
  else if overwrite = false ∧ getenv env name ≠ none then (0, env)
  else (0, putenv name value env)

/-! ## libntech -/

/-- `setenv_wrapper` (misc_lib.c:141-167): `native` on Linux and macOS. The buffer has 1024 bytes; the copy handed to `putenv` is split there at its first '='. -/
def setenvWrapper (native : Bool) (name value : Bytes) (overwrite : Bool) (env : List Bytes) : Int × List Bytes :=
  if native then setenv name value overwrite env
  else if name = [] ∨ hasEq name = true then (-1, env)
  else if overwrite = false ∧ getenv env name ≠ none then (0, env)
  else if (name ++ 61 :: value).length ≥ 1024 then (-1, env)
  else (0, putenv ((name ++ 61 :: value).takeWhile (· != 61)) (((name ++ 61 :: value).dropWhile (· != 61)).drop 1) env)

/-- `putenv_wrapper` (misc_lib.c:170-184). -/
def putenvWrapper (native : Bool) (str : Bytes) (env : List Bytes) : Int × List Bytes :=
  match str.findIdx? (· == 61) with
  | none => (-1, env)
  | some i => setenvWrapper native (str.take i) (str.drop (i + 1)) true env

end Environ
