import Verif.Model.SafeChown
/-! # Model of DeleteDirectoryTree (libutils/file_lib.c:1228-1308) and DirOpen (libutils/unix_dir.c:42-123)

On the filesystem, descriptors and environment of `Verif.Model.SafeOpen`. Here the number of directories that can be open at once is bounded (`EMFILE`), because the
depth of the recursion is. The names in a directory are taken to be read all at once, just after it is opened. -/
namespace SafeOpen

def EBUSY : Nat := 16
def EMFILE : Nat := 24
def ENAMETOOLONG : Nat := 36
def ENOTEMPTY : Nat := 39
/-- Linux. -/
def PATH_MAX : Nat := 4096

/-! ## System calls with a path -/

/-- Where a path starts; refuses the empty path and one that is too long. -/
def pathStart (E : Env) (fs : FS) (path : List UInt8) : Except Nat Nat :=
  if path = [] then .error ENOENT
  else if path.length ≥ PATH_MAX then .error ENAMETOOLONG
  else .ok (if path.head? = some 47 then fs.root else E.cwd)

/-- `opendir(path)`: the directory. -/
def kOpendir (E : Env) (path : List UInt8) (fs : FS) : Except Nat Nat :=
  match pathStart E fs path with
  | .error e => .error e
  | .ok s => match resolve fs maxLinks s (comps path) with
    | .error e => .error e
    | .ok i => match fs.node i with
      | some ⟨.dir _, _, _⟩ => .ok i
      | some _ => .error ENOTDIR
      | none => .error ESTALE

/-- The directory, the name and the object that the last of the components stands for, not following it if it is a link. -/
def kLast (fs : FS) (s : Nat) (cs : List Name) : Except Nat (Nat × Name × Nat) :=
  match cs.getLast? with
  | none => .error EBUSY
  | some c => match resolve fs maxLinks s cs.dropLast with
    | .error e => .error e
    | .ok d => match entry fs d c with
      | .error e => .error e
      | .ok i => .ok (d, c, i)

/-- `lstat(path)`: whether it is a directory. -/
def kLstat (E : Env) (path : List UInt8) (fs : FS) : Except Nat Bool :=
  match pathStart E fs path with
  | .error e => .error e
  | .ok s =>
    if comps path = [] then .ok true
    else match kLast fs s (comps path) with
      | .error e => .error e
      | .ok (_, _, i) => match fs.node i with
        | some ⟨.dir _, _, _⟩ => .ok true
        | some _ => .ok false
        | none => .error ESTALE

/-- The filesystem without the entry `c` in directory `d`. -/
def unlinked (fs : FS) (d : Nat) (c : Name) : FS :=
  match fs.node d with
  | some ⟨.dir ent, u, g⟩ => setNode fs d ⟨.dir (ent.filter fun e => e.1 ≠ c), u, g⟩
  | _ => fs

/-- `unlink(path)`. -/
def kUnlink (E : Env) (path : List UInt8) (fs : FS) : Except Nat Unit × FS :=
  match pathStart E fs path with
  | .error e => (.error e, fs)
  | .ok s => match kLast fs s (comps path) with
    | .error e => (.error e, fs)
    | .ok (d, c, i) => match fs.node i with
      | some ⟨.dir _, _, _⟩ => (.error EISDIR, fs)
      | some _ => (.ok (), unlinked fs d c)
      | none => (.error ESTALE, fs)

def isDot (c : Name) : Bool := c == [46] || c == [46, 46]

/-- `rmdir(path)`; a trailing slash is allowed, a last name `.` or `..` is not. -/
def kRmdir (E : Env) (path : List UInt8) (fs : FS) : Except Nat Unit × FS :=
  match pathStart E fs path with
  | .error e => (.error e, fs)
  | .ok s => match kLast fs s (pieces [] path) with
    | .error e => (.error e, fs)
    | .ok (d, c, i) =>
      if isDot c then (.error EINVAL, fs)
      else match fs.node i with
      | some ⟨.dir ent, _, _⟩ => if ent.all fun e => isDot e.1 then (.ok (), unlinked fs d c) else (.error ENOTEMPTY, fs)
      | some _ => (.error ENOTDIR, fs)
      | none => (.error ESTALE, fs)

def lstat (E : Env) (w : World) (path : List UInt8) : Option (Except Nat Bool × World) := call E w fun fs => some (kLstat E path fs, fs)
def unlink (E : Env) (w : World) (path : List UInt8) : Option (Except Nat Unit × World) := call E w fun fs => some (kUnlink E path fs)
def rmdir (E : Env) (w : World) (path : List UInt8) : Option (Except Nat Unit × World) := call E w fun fs => some (kRmdir E path fs)

/-- `opendir`. -/
def opendir (E : Env) (w : World) (path : List UInt8) : Option (Except Nat Nat × World) := do
  let r ← call E w fun fs => some (kOpendir E path fs, fs)
  match r with
  | (.error e, w) => some (.error e, w)
  | (.ok i, w) => let p := addFd w i; some (.ok p.1, p.2)

/-- The names in a directory. -/
def namesIn (fs : FS) (d : Nat) : List Name :=
  match fs.node d with
  | some ⟨.dir ent, _, _⟩ => ent.map (·.1)
  | _ => []

/-- All the names in an open directory, with `.` and `..`; none if reading fails, which ends the loop over them just as well. -/
def readNames (E : Env) (w : World) (fd : Nat) : Option (List Name × World) := do
  let d ← w.fds fd
  let r ← call E w fun fs => some ((.ok (namesIn fs d) : Except Nat (List Name)), fs)
  match r with
  | (.error _, w) => some ([], w)
  | (.ok l, w) => some (l, w)

/-! ## The C code -/

/-- Close the two descriptors and fail (unix_dir.c:60-72). -/
def dirFail (w : World) (sfd dfd e : Nat) : Option (Except Nat Nat × World) := do
  let w ← close w sfd
  let w ← close w dfd
  some (.error e, w)

/-- `DirOpen` (unix_dir.c:42-85). `free`: how many more directories can be open. The comparison of device and inode numbers is that of the objects the descriptors stand for. -/
def dirOpen (E : Env) (free : Nat) (w : World) (path : List UInt8) : Option (Except Nat Nat × World) := do
  let r ← safeOpen E w path rdonly
  match r with
  | (.error e, w) => some (.error e, w)
  | (.ok sfd, w) =>
    if free = 0 then do
      let w ← close w sfd
      some (.error EMFILE, w)
    else do
      let r ← opendir E w path
      match r with
      | (.error e, w) => do
        let w ← close w sfd
        some (.error e, w)
      | (.ok dfd, w) => do
        let r ← fstat E w sfd
        match r with
        | (.error e, w) => dirFail w sfd dfd e
        | (.ok _, w) => do
          let r ← fstat E w dfd
          match r with
          | (.error e, w) => dirFail w sfd dfd e
          | (.ok _, w) =>
            if w.fds sfd ≠ w.fds dfd then dirFail w sfd dfd EACCES
            else do
              let w ← close w sfd
              some (.ok dfd, w)

/-- `snprintf(subpath, sizeof(subpath), "%s/%s", path, d_name)` (file_lib.c:1256-1257). -/
def subpath (path : List UInt8) (name : Name) : List UInt8 := (path ++ 47 :: name).take (PATH_MAX - 1)

/-- The loop over the names (file_lib.c:1249-1298); `sub` is the recursive call. -/
def delLoop (E : Env) (sub : World → List UInt8 → Option (Bool × World)) (path : List UInt8) : List Name → World → (failed : Bool) → Option (Bool × World)
  | [], w, failed => some (failed, w)
  | c :: cs, w, failed =>
    if isDot c then delLoop E sub path cs w failed
    else do
      let r ← lstat E w (subpath path c)
      match r with
      | (.error e, w) => if e = ENOENT then delLoop E sub path cs w failed else delLoop E sub path cs w true
      | (.ok true, w) => do
        let r ← sub w (subpath path c)
        let q ← rmdir E r.2 (subpath path c)
        match q with
        | (.error _, w) => delLoop E sub path cs w true
        | (.ok _, w) => delLoop E sub path cs w (failed || !r.1)
      | (.ok false, w) => do
        let q ← unlink E w (subpath path c)
        match q with
        | (.error e, w) => if e = ENOENT then delLoop E sub path cs w failed else delLoop E sub path cs w true
        | (.ok _, w) => delLoop E sub path cs w failed

/-- `DeleteDirectoryTreeInternal` (file_lib.c:1228-1302), with the number of directories that can still be opened. -/
def delTree (E : Env) : (free : Nat) → World → List UInt8 → Option (Bool × World)
  | 0, w, path => do
    let r ← dirOpen E 0 w path
    match r with
    | (.error e, w) => some (e == ENOENT, w)
    | (.ok dfd, w) => do
      let w ← close w dfd
      some (false, w)
  | free + 1, w, path => do
    let r ← dirOpen E (free + 1) w path
    match r with
    | (.error e, w) => some (e == ENOENT, w)
    | (.ok dfd, w) => do
      let n ← readNames E w dfd
      let r ← delLoop E (delTree E free) path n.1 n.2 false
      let w ← close r.2 dfd
      some (!r.1, w)

/-- `DeleteDirectoryTree` (file_lib.c:1304-1307). -/
def deleteDirectoryTree (E : Env) (free : Nat) (w : World) (path : List UInt8) : Option (Bool × World) := delTree E free w path

end SafeOpen
