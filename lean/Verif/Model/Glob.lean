import Verif.Model.StrEdit
import Verif.Model.Path
/-!
# Model of `GlobFileList` and `ListDir` (libutils/file_lib.c)

`glob(3)` and the reading of a directory are parameters.
-/
namespace Glob

/-- `r_candidates` (file_lib.c:1540). -/
def candidates : List (List UInt8) :=
  [[42], [42, 47, 42], [42, 47, 42, 47, 42], [42, 47, 42, 47, 42, 47, 42], [42, 47, 42, 47, 42, 47, 42, 47, 42],
   [42, 47, 42, 47, 42, 47, 42, 47, 42, 47, 42]]

/-- The set so far, and what is allocated: strings made for the expansion and results of `glob`. -/
structure St where
  set : List (List UInt8)
  strings : Nat
  globs : Nat
deriving DecidableEq, Repr

/-- `StringSetAdd` (set.h, properties of the map: C11, C12): an equal member is replaced. -/
def setAdd (set : List (List UInt8)) (s : List UInt8) : List (List UInt8) := if set.contains s then set else set ++ [s]

/-- The body of the loop (file_lib.c:1545-1568) for one expanded pattern (with its terminator). `glob`: the paths, or `none` for an error (also
GLOB_NOMATCH), for which the result is not freed. -/
def globOne (glob : List UInt8 → Option (List (List UInt8))) (st : St) (expanded : List UInt8) : Option St :=
  let st := { st with strings := st.strings + 1 }
  let st := match glob (expanded.takeWhile (· ≠ 0)) with
    | some paths =>
      let st := { st with globs := st.globs + 1 }
      let st := { st with set := paths.foldl setAdd st.set }
      { st with globs := st.globs - 1 }
    | none => st
  if st.strings = 0 then none else some { st with strings := st.strings - 1 }

/-- The loop over the candidates (file_lib.c:1545-1569). -/
def globAll (glob : List UInt8 → Option (List (List UInt8))) (pattern : List UInt8) : List (List UInt8) → St → Option St
  | [], st => some st
  | c :: cs, st => do
    let expanded ← Str.searchAndReplace pattern [42, 42] c
    let st ← globOne glob st expanded
    globAll glob pattern cs st

/-- `GlobFileList` (file_lib.c:1534-1572). -/
def globFileList (glob : List UInt8 → Option (List (List UInt8))) (pattern : List UInt8) : Option St :=
  let starstar := (Str.strstr pattern [42, 42]).isSome
  if starstar then globAll glob pattern candidates ⟨[], 0, 0⟩
  else globOne glob ⟨[], 0, 0⟩ (pattern ++ [0])

/-- The loop of `ListDir` (file_lib.c:484-491). -/
def listLoop (dir : List UInt8) (extension : Option (List UInt8)) : List (List UInt8) → List (List UInt8) → Option (List (List UInt8))
  | [], acc => some acc
  | name :: names, acc => do
    let keep ← match extension with
      | none => some true
      | some e => Path.endsWithCase name e true
    if keep then do
      let joined ← Path.joinAlloc dir name
      let m ← joined
      let s ← CMem.str m
      listLoop dir extension names (acc ++ [s])
    else listLoop dir extension names acc

/-- `ListDir` (file_lib.c:472-494). `entries`: what `DirRead` gives until NULL, or `none` when the directory cannot be opened. -/
def listDir (entries : Option (List (List UInt8))) (dir : List UInt8) (extension : Option (List UInt8)) : Option (Option (List (List UInt8))) :=
  match entries with
  | none => some none
  | some names => (listLoop dir extension names []).map some

end Glob
