import Verif.Model.KnownDirs
/-! # Specification: which directory CFEngine uses for what -/
namespace KnownDirsSpec
open KnownDirs (Dir Env Config str)

abbrev Bytes := List UInt8

/-- The name of the directory under the work directory. -/
def sub : Dir → Option Bytes
  | .work => none
  | .pid => none
  | .log => some (str "log")
  | .bin => some (str "bin")
  | .data => some (str "data")
  | .master => some (str "masterfiles")
  | .input => some (str "inputs")
  | .state => some (str "state")

/-- A path below a directory. -/
def under (base : Bytes) : Option Bytes → Bytes
  | none => base
  | some s => base ++ str "/" ++ s

/-- The directory used when nothing overrides it: root uses the compiled one, others use ~/.cfagent. -/
def standard (c : Config) (uid : Nat) (home : Bytes) (d : Dir) : Bytes :=
  if uid = 0 then c d else under (home ++ str "/.cfagent") (sub d)

/-- The log directory under an override is the override itself. -/
def overrideSub : Dir → Option Bytes
  | .log => none
  | d => sub d

/-- Directories whose compiled location may be left at "default": below the work directory. -/
def movable : Dir → Bool
  | .data | .master | .input | .state => true
  | _ => false

def expected (c : Config) (uid : Nat) (home : Bytes) (override_ : Option Bytes) (d : Dir) : Bytes :=
  match override_ with
  | some w => under w (overrideSub d)
  | none =>
    if movable d = true ∧ c d = str "default" then under (standard c uid home .work) (sub d)
    else standard c uid home d

end KnownDirsSpec
