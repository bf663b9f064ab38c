import Verif.Spec.GenericAt
/-! # Model of libcompat/generic_at.c and of openat, fstatat, fchownat, fchmodat and readlinkat built on it

Any number of threads; each `pthread` call and each system call is a step, which the environment makes succeed or fail.  `pthread_mutex_lock` and
`pthread_mutex_unlock` do not fail (else `UnexpectedError` is reported).  `errno` is not modelled. -/
namespace At
open AtSpec (Op Sys Ev upd)

/-- `openat_inner` (openat.c:44-49) with the mode of openat.c:67-77, `fstatat_inner` (fstatat.c:43-54), `fchownat_inner` (fchownat.c:44-55), `fchmodat_inner` (fchmodat.c:44-54; `none`:
no system call is made and the result is -1), `readlinkat_inner` (readlinkat.c:43-47). -/
def inner : Op → Option Sys
  | .openat path creat flags mode => some (.open path flags (if creat then mode else 0))
  | .fstatat path nofollow => if nofollow then some (.lstat path) else some (.stat path)
  | .fchownat path owner group nofollow => if nofollow then some (.lchown path owner group) else some (.chown path owner group)
  | .fchmodat path mode nofollow => if nofollow then none else some (.chmod path mode)
  | .readlinkat path bufsize => some (.readlink path bufsize)

/-- `cleanup` (openat.c:51-58): the descriptor to close; the other `cleanup`s (fstatat.c:56-58, fchownat.c:58-60, fchmodat.c:57-59, readlinkat.c:50-52) do nothing. -/
def cleanupFd : Op → Int → Option Nat
  | .openat _ _ _ _, fd => if fd ≥ 0 then some fd.toNat else none
  | _, _ => none

/-- Where a thread is in `generic_at_function` (generic_at.c:68-140). `dirfd` is `none` for AT_FDCWD, `cwd` the descriptor of the old working directory. -/
inductive Ph where
  | idle
  | enter (dirfd : Option Nat) (op : Op)                     -- before pthread_mutex_lock, 74
  | openDot (d : Nat) (op : Op)                              -- before open("."), 83
  | fchdirTo (d : Nat) (op : Op) (cwd : Nat)                 -- before fchdir(dirfd), 95
  | closeFail (op : Op) (cwd : Nat)                          -- before close(cwd), 97
  | unlockFail (op : Op)                                     -- before the unlock of 86 or 99
  | func (op : Op) (cwd : Option Nat)                        -- before func(data), 110
  | back (op : Op) (cwd : Nat) (res : Int)                   -- before fchdir(cwd), 116
  | closeDot (op : Op) (cwd : Nat) (res : Int) (ok : Bool)   -- before close(cwd), 117
  | unlock (op : Op) (res : Int) (ok : Bool)                 -- before pthread_mutex_unlock, 120
  | cleanup (op : Op) (res : Int)                            -- before cleanup(data), 131
  | ret (op : Op) (r : Int)                                  -- before the return of 92, 106, 134 or 139

structure St where
  cwd : Nat
  fds : Nat → Option Nat
  lock : Option Nat
  th : Nat → Ph
  log : List Ev

/-- A thread calls one of the functions; a thread does its next step, with the environment's decision whether it succeeds, the number returned, and the object opened; the program opens or
closes a descriptor of its own. -/
inductive Act where
  | call (t : Nat) (dirfd : Option Nat) (op : Op)
  | go (t : Nat) (ok : Bool) (n : Nat) (obj : Nat)
  | openFd (fd obj : Nat)
  | closeFd (fd : Nat)

def St.set (s : St) (t : Nat) (p : Ph) : St := { s with th := upd s.th t p }
def St.say (s : St) (e : Ev) : St := { s with log := s.log ++ [e] }

/-- The system call of `func` (generic_at.c:110): its result, -1 or `n`; `open` makes a descriptor, whose number is free. -/
def perform (s : St) (t : Nat) (op : Op) (ok : Bool) (n obj : Nat) : Option (St × Int) :=
  match inner op with
  | none => some (s, -1)
  | some sys =>
    if ok then
      match sys with
      | .open _ _ _ => if s.fds n = none then some (({ s with fds := upd s.fds n (some obj) }).say (.did t s.cwd sys n obj), (n : Int)) else none
      | _ => some (s.say (.did t s.cwd sys n obj), (n : Int))
    else some (s.say (.did t s.cwd sys (-1) obj), -1)

/-- One step of `generic_at_function` (generic_at.c:68-140); `none` when it is not possible now. -/
def go (s : St) (t : Nat) (ok : Bool) (n obj : Nat) : Ph → Option St
  | .idle => none
  | .enter dirfd op =>
    if s.lock = none then
      match dirfd with
      | some d => some ({ s with lock := some t }.set t (.openDot d op))
      | none => some ({ s with lock := some t }.set t (.func op none))
    else none
  | .openDot d op =>
    if ok then (if s.fds n = none then some ({ s with fds := upd s.fds n (some s.cwd) }.set t (.fchdirTo d op n)) else none)
    else some (s.set t (.unlockFail op))
  | .fchdirTo d op c =>
    if ok then (match s.fds d with | some o => some ({ s with cwd := o }.set t (.func op (some c))) | none => none)
    else some (s.set t (.closeFail op c))
  | .closeFail op c => some ({ s with fds := upd s.fds c none }.set t (.unlockFail op))
  | .unlockFail op => some ({ s with lock := none }.set t (.ret op (-1)))
  | .func op saved =>
    (perform s t op ok n obj).bind fun (s, res) =>
      match saved with
      | some c => some (s.set t (.back op c res))
      | none => some (s.set t (.unlock op res true))
  | .back op c res =>
    if ok then (match s.fds c with | some o => some ({ s with cwd := o }.set t (.closeDot op c res true)) | none => none)
    else some ((s.set t (.closeDot op c res false)).say (.stuck t s.cwd))
  | .closeDot op c res b => some ({ s with fds := upd s.fds c none }.set t (.unlock op res b))
  | .unlock op res b => some ({ s with lock := none }.set t (if b then .ret op res else .cleanup op res))
  | .cleanup op res =>
    match cleanupFd op res with
    | some fd => some ({ s with fds := upd s.fds fd none }.set t (.ret op (-1)))
    | none => some (s.set t (.ret op (-1)))
  | .ret _ r => some ((s.set t .idle).say (.ret t r))

/-- One step of anyone; `has` tells the descriptors the program has (it closes no other). -/
def step (has : List Ev → Nat → Bool) (s : St) : Act → Option St
  | .call t dirfd op => match s.th t with
    | .idle => some ((s.set t (.enter dirfd op)).say (.call t dirfd op))
    | _ => none
  | .go t ok n obj => go s t ok n obj (s.th t)
  | .openFd fd obj => if s.fds fd = none then some ({ s with fds := upd s.fds fd (some obj) }.say (.openFd fd obj)) else none
  | .closeFd fd => if has s.log fd then some ({ s with fds := upd s.fds fd none }.say (.closeFd fd)) else none

/-- A schedule. -/
def run (has : List Ev → Nat → Bool) : St → List Act → Option St
  | s, [] => some s
  | s, a :: as => (step has s a).bind fun s => run has s as

/-- Nobody in a call. -/
def start (cwd : Nat) (fds : Nat → Option Nat) : St := ⟨cwd, fds, none, fun _ => .idle, []⟩

end At
