/-! # Specification of the `…at` functions

What a program sees: its calls, the system call each of them makes in the process's working directory, the failures to come back to that directory, and the results; and
its own opening and closing of descriptors. `step` accepts an event or refuses it. -/
namespace AtSpec

/-- The functions, with what they are asked for. Paths are byte strings; `nofollow` is the flag AT_SYMLINK_NOFOLLOW. -/
inductive Op where
  | openat (path : List UInt8) (creat : Bool) (flags mode : Nat)
  | fstatat (path : List UInt8) (nofollow : Bool)
  | fchownat (path : List UInt8) (owner group : Nat) (nofollow : Bool)
  | fchmodat (path : List UInt8) (mode : Nat) (nofollow : Bool)
  | readlinkat (path : List UInt8) (bufsize : Nat)
  deriving DecidableEq

/-- The system calls relative to the working directory. -/
inductive Sys where
  | open (path : List UInt8) (flags mode : Nat)
  | stat (path : List UInt8)
  | lstat (path : List UInt8)
  | chown (path : List UInt8) (owner group : Nat)
  | lchown (path : List UInt8) (owner group : Nat)
  | chmod (path : List UInt8) (mode : Nat)
  | readlink (path : List UInt8) (bufsize : Nat)
  deriving DecidableEq

/-- The system call that means the same in the right directory; changing the mode of a link is not supported. -/
def meant : Op → Option Sys
  | .openat p c f m => some (.open p f (if c then m else 0))
  | .fstatat p nf => some (if nf then .lstat p else .stat p)
  | .fchownat p u g nf => some (if nf then .lchown p u g else .chown p u g)
  | .fchmodat p m nf => if nf then none else some (.chmod p m)
  | .readlinkat p n => some (.readlink p n)

/-- The functions whose result is a new descriptor. -/
def opens : Op → Bool
  | .openat _ _ _ _ => true
  | _ => false

/-- `dirfd` is `none` for AT_FDCWD. Directories and other objects are numbers. -/
inductive Ev where
  /-- Thread `t` calls a function. -/
  | call (t : Nat) (dirfd : Option Nat) (op : Op)
  /-- The system call is made while the working directory is `dir`; `res` is its result, `obj` the object a descriptor was opened on. -/
  | did (t : Nat) (dir : Nat) (sys : Sys) (res : Int) (obj : Nat)
  /-- The working directory could not be restored, it now is `dir`; a warning is logged. -/
  | stuck (t : Nat) (dir : Nat)
  /-- The function returns. -/
  | ret (t : Nat) (r : Int)
  /-- The program opens a descriptor of its own, by other means, on `obj`. -/
  | openFd (fd obj : Nat)
  /-- The program closes a descriptor it has. -/
  | closeFd (fd : Nat)

/-- Where a call is. In `called`, `dir` is the directory `dirfd` stands for, if known: it is not if the descriptor was not open, or closed since. -/
inductive Call where
  | idle
  | called (dirfd : Option Nat) (dir : Option Nat) (op : Op)
  | done (dirfd : Option Nat) (op : Op) (dir : Nat) (res : Int) (obj : Nat)
  | lost

/-- The working directory, the descriptors the program has, and its calls. -/
structure S where
  cwd : Nat
  fds : Nat → Option Nat
  calls : Nat → Call

def upd {α : Type} (f : Nat → α) (k : Nat) (v : α) : Nat → α := fun x => if x = k then v else f x

/-- A closed descriptor stands for no directory. -/
def forget (fd : Nat) : Call → Call
  | .called (some d) dir op => .called (some d) (if d = fd then none else dir) op
  | c => c

def step (s : S) : Ev → Option S
  | .call t dirfd op => match s.calls t with
    | .idle => some { s with calls := upd s.calls t (.called dirfd (dirfd.bind s.fds) op) }
    | _ => none
  | .did t dir sys res obj => match s.calls t with
    | .called dirfd known op =>
      if meant op = some sys ∧                                          -- the right system call
         (dirfd = none → dir = s.cwd) ∧                                 -- in the working directory
         (∀ D ∈ known, dir = D) ∧                              -- or in the directory the descriptor stands for
         -1 ≤ res ∧ (opens op = true → 0 ≤ res → s.fds res.toNat = none)
      then some { s with calls := upd s.calls t (.done dirfd op dir res obj) } else none
    | _ => none
  | .stuck t dir => match s.calls t with
    | .done (some _) _ dir' _ _ => if dir = dir' then some { s with cwd := dir, calls := upd s.calls t .lost } else none
    | .called (some _) known op =>                                       -- the function needed no system call
      if meant op = none ∧ ∀ D ∈ known, dir = D then some { s with cwd := dir, calls := upd s.calls t .lost } else none
    | _ => none
  | .ret t r => match s.calls t with
    | .called _ _ _ => if r = -1 then some { s with calls := upd s.calls t .idle } else none    -- nothing was done
    | .done _ op _ res obj =>
      if r = res then some { s with calls := upd s.calls t .idle, fds := if opens op = true ∧ 0 ≤ res then upd s.fds res.toNat (some obj) else s.fds } else none
    | .lost => if r = -1 then some { s with calls := upd s.calls t .idle } else none            -- and a descriptor that was opened is gone again
    | .idle => none
  | .openFd fd obj => if s.fds fd = none then some { s with fds := upd s.fds fd (some obj) } else none
  | .closeFd fd => if s.fds fd = none then none else some { s with fds := upd s.fds fd none, calls := fun t => forget fd (s.calls t) }

def run : S → List Ev → Option S
  | s, [] => some s
  | s, e :: es => (step s e).bind fun s => run s es

/-- The program has the descriptor after these events. -/
def has (s0 : S) (log : List Ev) (fd : Nat) : Bool := (run s0 log).any fun s => (s.fds fd).isSome

end AtSpec
