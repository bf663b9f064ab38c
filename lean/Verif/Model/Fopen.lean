import Verif.Model.SafeChown
/-! # Model of safe_fopen, safe_creat and safe_chdir (libutils/file_lib.c:819-921, 1204-1209)

On the filesystem, descriptors and environment of `Verif.Model.SafeOpen`. `fdopen` is glibc's (it looks at the first character of the mode and at most four more, and checks that
the descriptor has the access asked for). -/
namespace SafeOpen

/-- The values of the flags on Linux; `O_BINARY` and `O_TEXT` are 0 there (libutils/platform.h). -/
def O_WRONLY : UInt32 := 1
def O_RDWR : UInt32 := 2
def O_CREAT : UInt32 := 64
def O_EXCL : UInt32 := 128
def O_TRUNC : UInt32 := 512

/-- One character of the mode (file_lib.c:844-872); `none` is the call of `ProgrammingError`, which ends the program. -/
def modeChar (flags : UInt32) (c : UInt8) : Option UInt32 :=
  if c = 114 then some flags
  else if c = 119 then some (flags ||| (O_WRONLY ||| O_TRUNC ||| O_CREAT))
  else if c = 97 then some (flags ||| (O_WRONLY ||| O_CREAT))
  else if c = 43 then some ((flags &&& ~~~O_WRONLY) ||| O_RDWR)
  else if c = 98 then some flags
  else if c = 116 then some flags
  else if c = 120 then some (flags ||| O_EXCL)
  else none

/-- The loop over the mode (file_lib.c:841-873). -/
def modeFlags : UInt32 → List UInt8 → Option UInt32
  | flags, [] => some flags
  | flags, c :: cs => do
    let f ← modeChar flags c
    modeFlags f cs

/-- What `safe_open` makes of the flags: writing, creating, exclusively, truncating. -/
def toFlags (f : UInt32) : Flags := ⟨f &&& 3 != 0, f &&& O_CREAT != 0, f &&& O_EXCL != 0, f &&& O_TRUNC != 0⟩

/-- A stream: its descriptor, what it can do, and the position it starts from. -/
structure Stream where
  fd : Nat
  reads : Bool
  writes : Bool
  appends : Bool
  pos : Nat
deriving DecidableEq

/-- `fdopen(fd, mode)` for a descriptor opened with the given flags. -/
def fdopen (fd : Nat) (flags : UInt32) (mode : List UInt8) : Option Stream :=
  match mode with
  | [] => none
  | c :: cs =>
    if c = 114 ∨ c = 119 ∨ c = 97 then
      let plus := (cs.take 4).contains 43
      let r := c = 114 ∨ plus
      let w := c ≠ 114 ∨ plus
      if (flags &&& 3 = 0 ∧ w) ∨ (flags &&& 3 = 1 ∧ r) then none
      else some ⟨fd, r, w, c = 97, 0⟩
    else none

/-- `fseek(ret, 0, SEEK_END)`: the size of the file. -/
def seekEnd (E : Env) (w : World) (fd : Nat) : Option (Except Nat Nat × World) := do
  let i ← w.fds fd
  call E w fun fs => some (match statNode fs i with
    | .ok st => .ok st.size
    | .error e => .error e, fs)

/-- `safe_fopen_create_perms` (file_lib.c:832-896) for non-NULL arguments. -/
def safeFopen (E : Env) (w : World) (path mode : List UInt8) : Option (Except Nat Stream × World) := do
  let flags ← modeFlags 0 mode
  let r ← safeOpen E w path (toFlags flags)
  match r with
  | (.error e, w) => some (.error e, w)
  | (.ok fd, w) =>
    match fdopen fd flags mode with
    | none => do
      let w ← close w fd
      some (.error EINVAL, w)
    | some s =>
      if mode.head? = some 97 then do
        let r ← seekEnd E w fd
        match r with
        | (.error e, w) => do
          let w ← close w fd
          some (.error e, w)
        | (.ok p, w) => some (.ok { s with pos := p }, w)
      else some (.ok s, w)

/-- `safe_creat` (file_lib.c:1203-1208). -/
def safeCreat (E : Env) (w : World) (path : List UInt8) : Option (Except Nat Nat × World) := safeOpen E w path (toFlags (O_CREAT ||| O_WRONLY ||| O_TRUNC))

/-- `fchdir(fd)`. -/
def fchdir (E : Env) (w : World) (fd : Nat) : Option (Except Nat Nat × World) := do
  let i ← w.fds fd
  call E w fun fs => some (match fs.node i with
    | some ⟨.dir _, _, _⟩ => .ok i
    | some _ => .error ENOTDIR
    | none => .error ESTALE, fs)

/-- `safe_chdir` (file_lib.c:904-921); the result is the new working directory. -/
def safeChdir (E : Env) (w : World) (path : List UInt8) : Option (Except Nat Nat × World) := do
  let r ← safeOpen E w path rdonly
  match r with
  | (.error e, w) => some (.error e, w)
  | (.ok fd, w) => do
    let r ← fchdir E w fd
    let w ← close r.2 fd
    some (r.1, w)

end SafeOpen
