import Verif.Model.StrTrim
/-! # Model of libcompat/closefrom.c -/
namespace CloseFrom

/-- The open descriptors of the process. -/
abbrev Fds := List Nat

/-- `close(f)`; closing what is not open fails and changes nothing. -/
def close (f : Int) (fds : Fds) : Fds := fds.filter fun x => (x : Int) ≠ f

/-- The value of a digit. -/
def digit (c : UInt8) : Nat := if 48 ≤ c ∧ c ≤ 57 then c.toNat - 48 else if 97 ≤ c ∧ c ≤ 102 then c.toNat - 87 else if 65 ≤ c ∧ c ≤ 70 then c.toNat - 55 else 99

/-- The digits of a number in the given base at the beginning of a text. -/
def digits (base : Nat) (s : List UInt8) : List UInt8 := s.takeWhile fun c => digit c < base

/-- `sscanf(name, "%i", &n)` (C library) without white space and signs: hexadecimal after 0x, octal after 0, otherwise decimal. -/
def scanI (s : List UInt8) : Option Nat :=
  match s with
  | 48 :: 120 :: t => if digits 16 t = [] then some 0 else some ((digits 16 t).foldl (fun n c => 16 * n + digit c) 0)
  | 48 :: t => some ((digits 8 t).foldl (fun n c => 8 * n + digit c) 0)
  | s => if digits 10 s = [] then none else some ((digits 10 s).foldl (fun n c => 10 * n + digit c) 0)

/-- The loop over the entries `readdir` returns until NULL (closefrom.c:77-97): the result (0, or -1 for an entry that is no number) and the descriptors. -/
def procLoop (fd : Int) (iter : Nat) : List (List UInt8) → Fds → Int × Fds
  | [], fds => (0, fds)
  | name :: rest, fds =>
    if name = [46] ∨ name = [46, 46] then procLoop fd iter rest fds
    else
      match scanI name with
      | none => (-1, fds)
      | some c => procLoop fd iter rest (if (c : Int) ≠ iter ∧ (c : Int) ≥ fd then close c fds else fds)

/-- `closefrom` where /proc/PID/fd can be opened (closefrom.c:66-102): the directory gets the descriptor `iter`, which is closed at the end. -/
def viaProc (fd : Int) (iter : Nat) (entries : List (List UInt8)) (fds : Fds) : Int × Fds :=
  let r := procLoop fd iter entries (iter :: fds)
  (r.1, close iter r.2)

/-- `n` iterations of the last loop (closefrom.c:113-116) from `c`. -/
def rangeLoop : Nat → Int → Fds → Fds
  | 0, _, fds => fds
  | n + 1, c, fds => rangeLoop n (c + 1) (close c fds)

/-- `closefrom` where it cannot (closefrom.c:107-119); `max` is what `sysconf(_SC_OPEN_MAX)` says. -/
def viaRange (fd max : Int) (fds : Fds) : Int × Fds := (0, rangeLoop (max - fd).toNat fd fds)

/-- The inner loop of the HP-UX variant (closefrom.c:59-62). -/
def closeAll : List Nat → Fds → Fds
  | [], fds => fds
  | f :: fs, fds => closeAll fs (close f fds)

theorem closeAll_le : ∀ (fs : List Nat) (fds : Fds), (closeAll fs fds).length ≤ fds.length := by
  intro fs
  induction fs with
  | nil => intro fds; exact Nat.le_refl _
  | cons f fs ih => intro fds; exact Nat.le_trans (ih _) (List.length_filter_le ..)

/-- The HP-UX variant (closefrom.c:43-63): `pstat_getfile2` gives the first hundred open descriptors, each time from the beginning. -/
def viaPstat (fds : Fds) : Int × Fds :=
  if h : fds.take 100 = [] then (0, fds) else viaPstat (closeAll (fds.take 100) fds)
termination_by fds.length
decreasing_by
  match fds, h with
  | f :: fs, _ =>
    rw [List.take_succ_cons, closeAll]
    refine Nat.lt_of_le_of_lt (closeAll_le _ _) ?_
    have : close f (f :: fs) = close f fs := by simp [close]
    rw [this, close]
    exact Nat.lt_succ_of_le (List.length_filter_le ..)

end CloseFrom
