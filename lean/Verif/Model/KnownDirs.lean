import Mathlib.Data.List.Basic
/-! # Model of libutils/known_dirs.c (POSIX build: neither Windows, Cygwin nor Android) -/
namespace KnownDirs

abbrev Bytes := List UInt8

/-- The directories asked for, one for each public function (known_dirs.h:33-40). -/
inductive Dir where
  | work | bin | data | log | pid | master | input | state
  deriving DecidableEq

/-- What the operating system answers at the time of a call: `getuid()`, `getenv("CFENGINE_TEST_OVERRIDE_WORKDIR")` and
the home directory of `getpwuid(getuid())`, `none` when there is no entry. -/
structure Env where
  uid : Nat
  override_ : Option Bytes
  home : Option Bytes

/-- The compile-time directories: WORKDIR, BINDIR, CF_DATADIR, LOGDIR, PIDDIR, MASTERDIR, INPUTDIR, STATEDIR. -/
abbrev Config := Dir → Bytes

/-- The static buffers, as the C strings they hold: one PATH_MAX buffer in each GetDefault…Dir (known_dirs.c:95-100),
OVERRIDE_BINDIR (known_dirs.c:29), and a CF_BUFSIZE buffer in each function made by GET_DIRECTORY_DEFINE_FUNC_BODY (known_dirs.c:169). -/
structure Bufs where
  home : Dir → Bytes
  bin : Bytes
  work : Dir → Bytes

/-- All static buffers start out zero. -/
def init : Bufs := ⟨fun _ => [], [], fun _ => []⟩

/-- Where a returned pointer points. -/
inductive Loc where
  | home (d : Dir)
  | bin
  | work (d : Dir)
  | compiled (d : Dir)
  | environment
  deriving DecidableEq

/-- PATH_MAX (platform.h:176) and CF_BUFSIZE (definitions.h:58). -/
def pathMax : Nat := 4096
def cfBufsize : Nat := 4096

def str (s : String) : Bytes := s.toList.map fun c => UInt8.ofNat c.toNat

/-- `snprintf(buf, size, …)` of a text without NUL: what the buffer then holds. The value returned is the length of the text. -/
def snprintf (size : Nat) (text : Bytes) : Bytes := text.take (size - 1)

/-- `append_dir` of each GetDefault…Dir (known_dirs.c:103-110). -/
def appendDir : Dir → Option Bytes
  | .work => none
  | .bin => some (str "bin")
  | .data => some (str "data")
  | .log => some (str "log")
  | .pid => none
  | .master => some (str "masterfiles")
  | .input => some (str "inputs")
  | .state => some (str "state")

/-- What the helper prints (known_dirs.c:67-82). -/
def homeText (home : Bytes) : Option Bytes → Bytes
  | none => home ++ str "/.cfagent"
  | some a => home ++ str "/.cfagent/" ++ a

def setHome (b : Bufs) (d : Dir) (t : Bytes) : Bufs := { b with home := fun e => if e = d then t else b.home e }
def setWork (b : Bufs) (d : Dir) (t : Bytes) : Bufs := { b with work := fun e => if e = d then t else b.work e }

/-- `GetDefaultDir_helper` (known_dirs.c:52-91) through `GetDefault…Dir` (known_dirs.c:95-110); a null pointer is `none`. -/
def getDefault (e : Env) (b : Bufs) (d : Dir) : Bufs × Option Loc :=
  if e.uid > 0 then
    if b.home d = [] then
      match e.home with
      | none => (b, none)
      | some h =>
        if (homeText h (appendDir d)).length ≥ pathMax then
          (setHome b d (snprintf pathMax (homeText h (appendDir d))), none)
        else (setHome b d (snprintf pathMax (homeText h (appendDir d))), some (.home d))
    else (b, some (.home d))
  else (b, some (.compiled d))

/-- What a pointer points at. -/
def deref (c : Config) (e : Env) (b : Bufs) : Loc → Option Bytes
  | .home d => some (b.home d)
  | .bin => some b.bin
  | .work d => some (b.work d)
  | .compiled d => some (c d)
  | .environment => e.override_

/-- `GetWorkDir` (known_dirs.c:116-121), `GetLogDir` (known_dirs.c:148-153) and `GetPidDir` (known_dirs.c:155-160). -/
def getPlain (e : Env) (b : Bufs) (d : Dir) : Bufs × Option Loc :=
  match e.override_ with
  | none => getDefault e b d
  | some _ => (b, some .environment)

/-- `GetBinDir` (known_dirs.c:123-146). -/
def getBin (e : Env) (b : Bufs) : Bufs × Option Loc :=
  match e.override_ with
  | none => getDefault e b .bin
  | some w => ({ b with bin := snprintf pathMax (w ++ str "/" ++ str "bin") }, some .bin)

/-- `FOLDER` of the functions made by the macro (known_dirs.c:187-194). -/
def folder : Dir → Bytes
  | .input => str "inputs"
  | .master => str "masterfiles"
  | .state => str "state"
  | _ => str "data"

/-- `GET_DIRECTORY_DEFINE_FUNC_BODY` (known_dirs.c:162-194); `MapName` changes nothing on this platform (file_lib.c:439-452).
Printing a null pointer with `%s` is undefined: `none`. -/
def getMapped (c : Config) (e : Env) (b : Bufs) (d : Dir) : Option (Bufs × Option Loc) :=
  match e.override_ with
  | some w => some (setWork b d (snprintf cfBufsize (w ++ str "/" ++ folder d)), some (.work d))
  | none =>
    if c d = str "default" then
      match getPlain e b .work with
      | (_, none) => none
      | (b, some p) =>
        match deref c e b p with
        | none => none
        | some w => some (setWork b d (snprintf cfBufsize (w ++ str "/" ++ folder d)), some (.work d))
    else some (getDefault e b d)

/-- The eight public functions. -/
def get (c : Config) (e : Env) (b : Bufs) : Dir → Option (Bufs × Option Loc)
  | .work => some (getPlain e b .work)
  | .log => some (getPlain e b .log)
  | .pid => some (getPlain e b .pid)
  | .bin => some (getBin e b)
  | d => getMapped c e b d

end KnownDirs
