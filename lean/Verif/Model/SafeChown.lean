import Verif.Model.SafeOpen
/-! # Model of safe_chown, safe_lchown and safe_chmod (libutils/file_lib.c:950-1200)

On the filesystem, descriptors and environment of `Verif.Model.SafeOpen`. Permission bits are not part of a filesystem state; that the mode of an object was set is
recorded as an event (`Chmod`). Which objects are FIFOs or sockets is a parameter. `dirname` and `basename` are the XPG ones (`<libgen.h>` is included).
As in `Verif.Model.SafeOpen`, the other reasons for which a system call can fail are in the environment. -/
namespace SafeOpen

def EPERM : Nat := 1

/-- Without trailing slashes. -/
def stripSlashes (p : List UInt8) : List UInt8 := (p.reverse.dropWhile (· == 47)).reverse
/-- Without the trailing name. -/
def stripName (p : List UInt8) : List UInt8 := (p.reverse.dropWhile (· ≠ 47)).reverse
/-- The trailing name. -/
def lastName (p : List UInt8) : List UInt8 := (p.reverse.takeWhile (· ≠ 47)).reverse

/-- XPG `dirname` (glibc's, which may answer `//` for `/` if the path starts with exactly two slashes: the same directory). -/
def dirname (p : List UInt8) : List UInt8 :=
  if stripSlashes p = [] then (if p = [] then [46] else [47])
  else if stripName (stripSlashes p) = [] then [46]
  else if stripSlashes (stripName (stripSlashes p)) = [] then [47]
  else stripSlashes (stripName (stripSlashes p))

/-- XPG `basename`. -/
def basename (p : List UInt8) : List UInt8 :=
  if stripSlashes p = [] then (if p = [] then [46] else [47]) else lastName (stripSlashes p)

/-- Look a leaf up from a directory: one name, or `/`, which is the root wherever one starts. -/
def entryLeaf (fs : FS) (d : Nat) (leaf : Name) : Except Nat Nat := if leaf = [47] then .ok fs.root else entry fs d leaf

/-- The fields of `struct stat` used here. -/
structure LStat where
  uid : Nat
  gid : Nat
  size : Nat
  isLink : Bool

def lstatOf (n : Inode) : LStat :=
  { uid := n.uid, gid := n.gid, size := (statOf n).size, isLink := match n.kind with | .link _ => true | _ => false }

/-- `fstatat(fd, leaf, &st, AT_SYMLINK_NOFOLLOW)`. -/
def lstatat (E : Env) (w : World) (fd : Nat) (leaf : Name) : Option (Except Nat (Nat × LStat) × World) := do
  let d ← w.fds fd
  call E w fun fs => some (match entryLeaf fs d leaf with
    | .error e => .error e
    | .ok i => match fs.node i with
      | some n => .ok (i, lstatOf n)
      | none => .error ESTALE, fs)

/-- `readlinkat(fd, leaf, buf, size)`. -/
def readlinkat (E : Env) (w : World) (fd : Nat) (leaf : Name) (size : Nat) : Option (Except Nat (List UInt8) × World) := do
  let d ← w.fds fd
  call E w fun fs => some (match entryLeaf fs d leaf with
    | .error e => .error e
    | .ok i => match fs.node i with
      | some ⟨.link t, _, _⟩ => .ok (t.take size)
      | some _ => .error EINVAL
      | none => .error ESTALE, fs)

/-- The filesystem with the owner and group of `i` changed (`none` is -1: leave as it is). -/
def chowned (fs : FS) (i : Nat) (owner group : Option Nat) : FS :=
  match fs.node i with
  | some n => setNode fs i { n with uid := owner.getD n.uid, gid := group.getD n.gid }
  | none => fs

/-- `fchownat(fd, leaf, owner, group, AT_SYMLINK_NOFOLLOW)`. -/
def fchownat (E : Env) (w : World) (fd : Nat) (leaf : Name) (owner group : Option Nat) : Option (Except Nat Unit × World) := do
  let d ← w.fds fd
  call E w fun fs => some (match entryLeaf fs d leaf with
    | .error e => (.error e, fs)
    | .ok i => match fs.node i with
      | some _ => (.ok (), chowned fs i owner group)
      | none => (.error ESTALE, fs))

/-- The flags of `safe_open(path, O_RDONLY)`. -/
def rdonly : Flags := ⟨false, false, false, false⟩

/-- The check on the owner of the link that led here (file_lib.c:979-987). -/
def linkRefused (E : Env) (link : Option (Nat × Nat)) (st : LStat) : Bool :=
  match link with
  | none => false
  | some (u, g) => u != 0 && u != E.euid && (u != st.uid || g != st.gid)

/-- What the link stands for, seen from the parent directory (file_lib.c:1011-1022). -/
def resolvedLink (parent link : List UInt8) : List UInt8 := if link.head? = some 47 then link else parent ++ 47 :: link

/-- `safe_open_true_parent_dir` (file_lib.c:951-1046); the recursion is on `loop_countdown`. -/
def trueParent (E : Env) (nofollow : Bool) : (countdown : Nat) → World → (path : List UInt8) → (link : Option (Nat × Nat)) → Option (Except Nat Nat × World)
  | countdown, w, path, link => do
    let r ← safeOpen E w (dirname path) rdonly
    match r with
    | (.error e, w) => some (.error e, w)
    | (.ok dirfd, w) => do
      let r ← lstatat E w dirfd (basename path)
      match r with
      | (.error e, w) => do
        let w ← close w dirfd
        some (.error e, w)
      | (.ok (_, st), w) =>
        if linkRefused E link st then do
          let w ← close w dirfd
          some (.error ENOLINK, w)
        else if st.isLink && !nofollow then
          match countdown with
          | 0 => do
            let w ← close w dirfd
            some (.error ELOOP, w)
          | 1 => do
            let w ← close w dirfd
            some (.error ELOOP, w)
          | n + 2 => do
            let r ← readlinkat E w dirfd (basename path) (st.size + 1)
            match r with
            | (.error _, w) => do
              let w ← close w dirfd
              some (.error ENOLINK, w)
            | (.ok t, w) =>
              if t.length > st.size then do
                let w ← close w dirfd
                some (.error ENOLINK, w)
              else do
                let r ← trueParent E nofollow (n + 1) w (resolvedLink (dirname path) t) (some (st.uid, st.gid))
                let w ← close r.2 dirfd
                some (r.1, w)
        else some (.ok dirfd, w)

/-- `SYMLINK_MAX_DEPTH` (file_lib.c:44). -/
def SYMLINK_MAX_DEPTH : Nat := 32

/-- `safe_chown_impl` (file_lib.c:1063-1082). -/
def safeChownImpl (E : Env) (w : World) (path : List UInt8) (owner group : Option Nat) (nofollow : Bool) : Option (Except Nat Unit × World) := do
  let r ← trueParent E nofollow SYMLINK_MAX_DEPTH w path none
  match r with
  | (.error e, w) => some (.error e, w)
  | (.ok dirfd, w) => do
    let r ← fchownat E w dirfd (basename path) owner group
    let w ← close r.2 dirfd
    some (r.1, w)

/-- `safe_chown` (file_lib.c:1093-1100). -/
def safeChown (E : Env) (w : World) (path : List UInt8) (owner group : Option Nat) : Option (Except Nat Unit × World) := safeChownImpl E w path owner group false

/-- `safe_lchown` (file_lib.c:1110-1113). -/
def safeLchown (E : Env) (w : World) (path : List UInt8) (owner group : Option Nat) : Option (Except Nat Unit × World) := safeChownImpl E w path owner group true

/-! ## safe_chmod -/

/-- The mode of an object was set, by the system call with this number. -/
structure Chmod where
  inode : Nat
  time : Nat

/-- `fchmod(fd, mode)`. -/
def fchmod (E : Env) (w : World) (fd : Nat) : Option (Except Nat Chmod × World) := do
  let i ← w.fds fd
  call E w fun fs => some (match fs.node i with
    | some _ => .ok ⟨i, w.log.length⟩
    | none => .error ESTALE, fs)

/-- `fchmodat(fd, leaf, mode, 0)` with the given effective user: follows links, and is allowed to root and to the owner. -/
def fchmodat (E : Env) (euid : Nat) (w : World) (fd : Nat) (leaf : Name) : Option (Except Nat Chmod × World) := do
  let d ← w.fds fd
  call E w fun fs => some (match resolve fs maxLinks (if leaf = [47] then fs.root else d) (comps leaf) with
    | .error e => .error e
    | .ok i => match fs.node i with
      | some n => if euid = 0 ∨ euid = n.uid then .ok ⟨i, w.log.length⟩ else .error EPERM
      | none => .error ESTALE, fs)

/-- `seteuid`. -/
def seteuid (E : Env) (w : World) : Option (Except Nat Unit × World) := call E w fun fs => some (.ok (), fs)

/-- `safe_chmod` (file_lib.c:1122-1195); `special i`: `i` is a FIFO or a socket. The `seteuid` back to the old user is taken to succeed (the code ends the program if not). -/
def safeChmod (E : Env) (special : Nat → Bool) (w : World) (path : List UInt8) : Option (Except Nat Chmod × World) := do
  let r ← trueParent E false SYMLINK_MAX_DEPTH w path none
  match r with
  | (.error e, w) => some (.error e, w)
  | (.ok dirfd, w) => do
    let r ← lstatat E w dirfd (basename path)
    match r with
    | (.error e, w) => do
      let w ← close w dirfd
      some (.error e, w)
    | (.ok (i, st), w) =>
      if special i then do
        let r ← seteuid E w
        match r with
        | (.error e, w) => do
          let w ← close w dirfd
          some (.error e, w)
        | (.ok _, w) => do
          let r ← fchmodat E st.uid w dirfd (basename path)
          let w ← close r.2 dirfd
          some (r.1, w)
      else do
        let r ← safeOpen E w path rdonly
        match r with
        | (.error e, w) => do
          let w ← close w dirfd
          some (.error e, w)
        | (.ok fd, w) => do
          let r ← fchmod E w fd
          let w ← close r.2 fd
          let w ← close w dirfd
          some (r.1, w)

end SafeOpen
