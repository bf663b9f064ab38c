/-! # Model of safe_open (libutils/file_lib.c:507-817) on a POSIX filesystem that others change meanwhile

The first part is the part of the kernel that the function uses (POSIX `openat`, `fstatat`, `fstat`, `ftruncate`, `close`; path resolution as in
POSIX XBD 4.13). The second part is the C code. Not modelled: permission bits, special files, `O_NOFOLLOW`, `O_DIRECTORY` and the other pass-through flags
(system calls may fail at any time with any error instead, see `Env.inj`). -/
namespace SafeOpen

abbrev Name := List UInt8

/-! ## Filesystem -/

inductive Kind where
  | reg (data : List UInt8)
  | dir (entries : List (Name × Nat))  -- with `.` and `..`
  | link (target : List UInt8)
deriving DecidableEq

structure Inode where
  kind : Kind
  uid : Nat
  gid : Nat
deriving DecidableEq

structure FS where
  node : Nat → Option Inode
  root : Nat
  fresh : Nat

def ENOENT : Nat := 2
def EACCES : Nat := 13
def EEXIST : Nat := 17
def ENOTDIR : Nat := 20
def EISDIR : Nat := 21
def EINVAL : Nat := 22
def ENOSPC : Nat := 28
def ELOOP : Nat := 40
def ENOLINK : Nat := 67
def ESTALE : Nat := 116

/-- Look up one name in a directory. -/
def entry (fs : FS) (d : Nat) (c : Name) : Except Nat Nat :=
  match fs.node d with
  | some ⟨.dir ent, _, _⟩ =>
    match ent.lookup c with
    | some i => .ok i
    | none => .error ENOENT
  | some _ => .error ENOTDIR
  | none => .error ESTALE

/-- Non-empty pieces between slashes. -/
def pieces : (cur : Name) → List UInt8 → List Name
  | cur, [] => if cur = [] then [] else [cur]
  | cur, c :: s => if c = 47 then (if cur = [] then pieces [] s else cur :: pieces [] s) else pieces (cur ++ [c]) s

/-- The components of a path; a trailing slash after a name stands for a final `.` (POSIX XBD 4.13). -/
def comps (path : List UInt8) : List Name :=
  pieces [] path ++ (if path.getLast? = some 47 ∧ pieces [] path ≠ [] then [[46]] else [])

/-- Walk along components; `k` continues after a symbolic link. -/
def walk (fs : FS) (k : Nat → List Name → Except Nat Nat) : List Name → Nat → Except Nat Nat
  | [], cur => .ok cur
  | c :: cs, cur =>
    match entry fs cur c with
    | .error e => .error e
    | .ok i =>
      match fs.node i with
      | some ⟨.link t, _, _⟩ => k (if t.head? = some 47 then fs.root else cur) (comps t ++ cs)
      | _ => walk fs k cs i

/-- Path resolution following at most `n` links. -/
def resolve (fs : FS) : Nat → Nat → List Name → Except Nat Nat
  | 0, cur, cs => walk fs (fun _ _ => .error ELOOP) cs cur
  | n + 1, cur, cs => walk fs (resolve fs n) cs cur

/-- Linux's limit on links followed. -/
def maxLinks : Nat := 40

/-- `O_WRONLY` or `O_RDWR`; `O_CREAT`; `O_EXCL`; `O_TRUNC`. -/
structure Flags where
  wr : Bool
  creat : Bool
  excl : Bool
  trunc : Bool
deriving DecidableEq

def setNode (fs : FS) (i : Nat) (n : Inode) : FS := { fs with node := fun j => if j = i then some n else fs.node j }

/-- Add the entry `c ↦ i` to a directory inode. -/
def addEntry (n : Inode) (c : Name) (i : Nat) : Inode :=
  match n.kind with
  | .dir ent => { n with kind := .dir (ent ++ [(c, i)]) }
  | _ => n

/-- The filesystem with a new empty file `c` in directory `d`. -/
def created (fs : FS) (d : Nat) (dn : Inode) (c : Name) (uid gid : Nat) : FS :=
  { setNode (setNode fs fs.fresh ⟨.reg [], uid, gid⟩) d (addEntry dn c fs.fresh) with fresh := fs.fresh + 1 }

/-- The filesystem with file `i` cut to length 0. -/
def truncated (fs : FS) (i : Nat) : FS :=
  match fs.node i with
  | some n => setNode fs i { n with kind := .reg [] }
  | none => fs

/-- `open` of an existing object with the flags. -/
def openExisting (fs : FS) (i : Nat) (fl : Flags) : Except Nat Nat × FS :=
  match fs.node i with
  | some ⟨.reg _, _, _⟩ => (.ok i, if fl.trunc then truncated fs i else fs)
  | some ⟨.dir _, _, _⟩ => if fl.wr then (.error EISDIR, fs) else (.ok i, fs)
  | _ => (.error ESTALE, fs)

/-- `openat(dir, path, flags)` for a relative path of one component (possibly with trailing slashes). Creation only together with `O_EXCL`; the outer
`none` is `O_CREAT` without `O_EXCL`, which is not modelled (and never happens, see the theorems). -/
def kOpenat (uid gid : Nat) (d : Nat) (path : List UInt8) (fl : Flags) (fs : FS) : Option (Except Nat Nat × FS) :=
  if fl.creat then
    if fl.excl then
      if path.contains 47 then some (.error EISDIR, fs)
      else match entry fs d path with
        | .ok _ => some (.error EEXIST, fs)
        | .error e =>
          if e ≠ ENOENT then some (.error e, fs)
          else match fs.node d, fs.node fs.fresh with
            | some dn, none => some (.ok fs.fresh, created fs d dn path uid gid)
            | _, _ => some (.error ENOSPC, fs)
    else none
  else
    match resolve fs maxLinks d (comps path) with
    | .error e => some (.error e, fs)
    | .ok i => some (openExisting fs i fl)

structure Stat where
  uid : Nat
  gid : Nat
  size : Nat

def statOf (n : Inode) : Stat :=
  { uid := n.uid, gid := n.gid, size := match n.kind with
      | .reg data => data.length
      | .dir _ => 4096
      | .link t => t.length }

/-- What `fstat` says about an object. -/
def statNode (fs : FS) (i : Nat) : Except Nat Stat :=
  match fs.node i with
  | some n => .ok (statOf n)
  | none => .error ESTALE

/-- What `fstatat` without following links says about a name in a directory. -/
def statAt (fs : FS) (d : Nat) (name : Name) : Except Nat Stat :=
  match entry fs d name with
  | .error e => .error e
  | .ok i => statNode fs i

/-! ## The process -/

/-- What the function cannot control: what others do to the filesystem before the n-th system call (`adv`), which calls fail for reasons outside the
model and how (`inj`), the effective ids, and the working directory. -/
structure Env where
  adv : Nat → FS → FS
  inj : Nat → Option Nat
  euid : Nat
  egid : Nat
  cwd : Nat

/-- The filesystem; the descriptor table; an unused descriptor; and, for each system call so far, the filesystem just before and just after it. -/
structure World where
  fs : FS
  fds : Nat → Option Nat
  next : Nat
  log : List (FS × FS)

/-- One system call: others act, then the call fails outright or takes effect. -/
def call {α : Type} (E : Env) (w : World) (op : FS → Option (Except Nat α × FS)) : Option (Except Nat α × World) :=
  let fs := E.adv w.log.length w.fs
  match E.inj w.log.length with
  | some e => some (.error e, { w with fs := fs, log := w.log ++ [(fs, fs)] })
  | none => do
    let r ← op fs
    some (r.1, { w with fs := r.2, log := w.log ++ [(fs, r.2)] })

/-- Give a descriptor to the object opened. -/
def addFd (w : World) (i : Nat) : Nat × World :=
  (w.next, { w with fds := fun f => if f = w.next then some i else w.fds f, next := w.next + 1 })

/-- `close`; closing a descriptor that is not open counts as undefined. -/
def close (w : World) (fd : Nat) : Option World :=
  match w.fds fd with
  | some _ => some { w with fds := fun f => if f = fd then none else w.fds f }
  | none => none

/-- `openat(fd, path, flags, perms)`. -/
def openat (E : Env) (w : World) (fd : Nat) (path : List UInt8) (fl : Flags) : Option (Except Nat Nat × World) := do
  let d ← w.fds fd
  let r ← call E w (kOpenat E.euid E.egid d path fl)
  match r with
  | (.error e, w) => some (.error e, w)
  | (.ok i, w) => let p := addFd w i; some (.ok p.1, p.2)

/-- `openat(AT_FDCWD, first_dir, O_RDONLY)` (file_lib.c:600): `/` or `.`. -/
def openFirst (E : Env) (w : World) (absolute : Bool) : Option (Except Nat Nat × World) := do
  let r ← call E w fun fs => some (.ok (if absolute then fs.root else E.cwd), fs)
  match r with
  | (.error e, w) => some (.error e, w)
  | (.ok i, w) => let p := addFd w i; some (.ok p.1, p.2)

/-- `fstatat(fd, name, &st, AT_SYMLINK_NOFOLLOW)`. -/
def fstatat (E : Env) (w : World) (fd : Nat) (name : Name) : Option (Except Nat Stat × World) := do
  let d ← w.fds fd
  call E w fun fs => some (statAt fs d name, fs)

/-- `fstat(fd, &st)`. -/
def fstat (E : Env) (w : World) (fd : Nat) : Option (Except Nat Stat × World) := do
  let i ← w.fds fd
  call E w fun fs => some (statNode fs i, fs)

/-- `ftruncate(fd, 0)`. -/
def ftruncate (E : Env) (w : World) (fd : Nat) : Option (Except Nat Unit × World) := do
  let i ← w.fds fd
  call E w fun fs => some (.ok (), truncated fs i)

/-! ## The C code -/

/-- `bool p_uid; p_uid = geteuid();` (file_lib.c:584, 607): conversion to bool. -/
def pUid (E : Env) : Nat := if E.euid = 0 then 0 else 1

/-- The comparison (file_lib.c:769-771). -/
def refused (E : Env) (before after : Stat) : Bool :=
  before.uid != 0 && before.uid != pUid E && (before.uid != after.uid || before.gid != after.gid)

/-- Return -1 after closing. -/
def fail (w : World) (fd : Nat) (e : Nat) : Option (Except Nat (Nat × Option Nat) × World) := do
  let w ← close w fd
  some (.error e, w)

/-- The check after the open (file_lib.c:756-784): the descriptor and the new `final_size` (`none` = still `(size_t) -1`). -/
def checkAfter (E : Env) (w : World) (fd : Nat) (before : Except Nat Stat) : Option (Except Nat (Nat × Option Nat) × World) :=
  match before with
  | .error _ => some (.ok (fd, none), w)
  | .ok b => do
    let r ← fstat E w fd
    match r with
    | (.error e, w) => fail w fd e
    | (.ok a, w) => if refused E b a then fail w fd ENOLINK else some (.ok (fd, some a.size), w)

/-- A component that is not the last (file_lib.c:643-786). -/
def inner (E : Env) (w : World) (cur : Nat) (name : Name) : Option (Except Nat (Nat × Option Nat) × World) := do
  let r ← fstatat E w cur name
  match r with
  | (.error e, w) => fail w cur e
  | (.ok b, w) => do
    let r ← openat E w cur name ⟨false, false, false, false⟩
    match r with
    | (.error e, w) => fail w cur e
    | (.ok fd, w) => do
      let w ← close w cur
      checkAfter E w fd (.ok b)

/-- The flags passed to the last `openat` (file_lib.c:648-656, 689-714). -/
def leafFlags (fl : Flags) (existed : Bool) : Flags :=
  if existed then { fl with trunc := false, creat := false } else { fl with trunc := false, excl := true }

/-- The error returns before the last `openat` (file_lib.c:666-673, 703-708). -/
def leafError (fl : Flags) (before : Except Nat Stat) : Option Nat :=
  match before with
  | .error e => if e ≠ ENOENT ∨ fl.creat = false then some e else none
  | .ok _ => if fl.creat = true ∧ fl.excl = true then some EEXIST else none

/-- The last component (file_lib.c:643-786) with the number of attempts left; `name` for `fstatat`, `path` (with trailing slashes) for `openat`. -/
def leaf (E : Env) (cur : Nat) (name : Name) (path : List UInt8) (fl : Flags) : (attempts : Nat) → World →
    Option (Except Nat (Nat × Option Nat) × World)
  | attempts, w => do
    let r ← fstatat E w cur name
    match r with
    | (b, w) =>
      match leafError fl b with
      | some e => fail w cur e
      | none => do
        let r ← openat E w cur path (leafFlags fl b.isOk)
        match r with
        | (.error e, w) =>
          if (!b.isOk && !fl.excl && e == EEXIST) || (b.isOk && fl.creat && e == ENOENT) then
            match attempts with
            | 0 => fail w cur EACCES
            | a + 1 => leaf E cur name path fl a w
          else fail w cur e
        | (.ok fd, w) => do
          let w ← close w cur
          checkAfter E w fd b

/-- `strchr(component + 1, '/')` (file_lib.c:614): the name and the rest from the slash on. -/
def splitName : List UInt8 → Name × List UInt8
  | [] => ([], [])
  | c :: s => (c :: s.takeWhile (· ≠ 47), s.dropWhile (· ≠ 47))

theorem dropWhile_length {α : Type} (p : α → Bool) (l : List α) : (l.dropWhile p).length ≤ l.length := by
  induction l with
  | nil => simp
  | cons a l ih => rw [List.dropWhile_cons]; split <;> simp <;> omega

theorem splitName_length (c : UInt8) (s : List UInt8) :
    ((splitName (c :: s)).2.dropWhile (· == 47)).length < (c :: s).length := by
  have h1 := dropWhile_length (· == 47) (splitName (c :: s)).2
  have h2 := dropWhile_length (· ≠ 47) s
  simp only [splitName, List.length_cons] at *
  omega

/-- The loop over the components (file_lib.c:610-788): `rest` is the text from `next_component` on; the buffer's temporary NULs are represented by the pieces
`splitName` yields. The result is the descriptor, `final_size`, and `trunc`. -/
def loop (E : Env) (fl : Flags) (w : World) (cur : Nat) (rest : List UInt8) :
    Option (Except Nat (Nat × Option Nat × Bool) × World) :=
  match rest with
  | [] => some (.ok (cur, none, false), w)
  | c :: s =>
    match h : (splitName (c :: s)).2.dropWhile (· == 47) with
    | [] =>
      match leaf E cur (splitName (c :: s)).1 (c :: s) fl 3 w with
      | none => none
      | some (.error e, w) => some (.error e, w)
      | some (.ok (fd, size), w) => some (.ok (fd, size, fl.trunc && size.isSome), w)
    | c' :: s' =>
      match inner E w cur (splitName (c :: s)).1 with
      | none => none
      | some (.error e, w) => some (.error e, w)
      | some (.ok (fd, _), w) => loop E fl w fd (c' :: s')
termination_by rest.length
decreasing_by
  have := splitName_length c s
  rw [h] at this
  exact this

/-- The truncation at the end (file_lib.c:790-812), with its assertion. -/
def finish (E : Env) (w : World) (fd : Nat) (size : Option Nat) (trunc : Bool) : Option (Except Nat Nat × World) :=
  if trunc then
    match size with
    | none => none
    | some n =>
      if n ≠ 0 then do
        let r ← ftruncate E w fd
        match r with
        | (.error e, w) => do
          let w ← close w fd
          some (.error e, w)
        | (.ok _, w) => some (.ok fd, w)
      else some (.ok fd, w)
  else some (.ok fd, w)

/-- `safe_open_create_perms` (file_lib.c:541-810) for a non-NULL path (a list of bytes without its terminator); the result is the descriptor or `errno`. -/
def safeOpen (E : Env) (w : World) (path : List UInt8) (fl : Flags) : Option (Except Nat Nat × World) :=
  if fl.trunc && !fl.wr then none
  else match path with
  | [] => some (.error ENOENT, w)
  | c :: s => do
    let rest := if c = 47 then s.dropWhile (· == 47) else c :: s
    let r ← openFirst E w (c == 47)
    match r with
    | (.error e, w) => some (.error e, w)
    | (.ok fd, w) => do
      let r ← loop E fl w fd rest
      match r with
      | (.error e, w) => some (.error e, w)
      | (.ok (fd, size, trunc), w) => finish E w fd size trunc

end SafeOpen
