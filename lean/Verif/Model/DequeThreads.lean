import Verif.Model.ThreadedQueue
import Verif.Model.Monitor
import Verif.Spec.DequeThreads
/-!
# Model of libutils/threaded_deque.c, memory access by memory access

The structure is `TD.D` (Model/ThreadedQueue.lean); every read and write of one of its fields or of one cell of `data` is an
instruction of its own, `xrealloc`, `memmove` and `memcpy` are one instruction each.
-/
namespace TDT
open Mon TD BlockSpec

/-- `cond_non_empty` and `cond_empty` (threaded_deque.c:45-46). -/
inductive Cond where
  | nonEmpty
  | empty
deriving DecidableEq

abbrev Pg (P : Type) := Prog (D P) Cond (Res P)

/-- Reading a field (threaded_deque.c:43-53). -/
def rd {P β : Type} (f : D P → β) (k : β → Pg P) : Pg P := .acc (fun m => some (m, f m)) k
/-- Writing a field (threaded_deque.c:43-53). -/
def wr {P : Type} (g : D P → D P) (k : Pg P) : Pg P := .acc (fun m => some (g m, ())) fun _ => k
/-- Reading the item in a cell of `data` (threaded_deque.c:48); a cell holding no item is undefined here. -/
def rdCell {P : Type} (i : Nat) (k : P → Pg P) : Pg P := .acc (fun m => (CMem.get m.data i).map fun x => (m, x)) k
/-- Writing a cell of `data` (threaded_deque.c:48). -/
def wrCell {P : Type} (i : Nat) (v : Option P) (k : Pg P) : Pg P :=
  .acc (fun m => (CMem.write m.data i v).map fun d => ({ m with data := d }, ())) fun _ => k

/-- `ExpandIfNecessary` (threaded_deque.c:611-642), with its assertion. -/
def expand {P : Type} (k : Pg P) : Pg P :=
  rd (·.size) fun size => rd (·.cap) fun cap =>
    if cap < size then .acc (fun _ => none) (fun (_ : Unit) => k) else
    if size = cap then
      rd (·.right) fun right => rd (·.left) fun left =>
        if right ≤ left then
          rd (·.cap) fun old =>
          wr (fun m => { m with cap := old * 2 }) <|
          .acc (fun m => some ({ m with data := CMem.realloc m.data (old * 2) }, ())) fun _ =>
          rd (·.right) fun right =>
          .acc (fun m => (CMem.memmove m.data old 0 right).map fun d => ({ m with data := d }, ())) fun _ =>
          rd (·.right) fun right => wr (fun m => { m with right := right + old }) k
        else
          rd (·.cap) fun old => wr (fun m => { m with cap := old * 2 }) <|
          .acc (fun m => some ({ m with data := CMem.realloc m.data (old * 2) }, ())) fun _ => k
    else k

/-- `ThreadedDequePushLeft` (threaded_deque.c:393-410) -/
def pushLeft {P : Type} (x : P) : Pg P :=
  .lock <| expand <|
    rd (·.left) fun left => rd (·.cap) fun cap =>
    wr (fun m => { m with left := if left = 0 then cap - 1 else left - 1 }) <|
    rd (·.left) fun left => wrCell left (some x) <|
    rd (·.size) fun n => wr (fun m => { m with size := n + 1 }) <|
    rd (·.size) fun size => .signal .nonEmpty <| .unlock <| .ret (.size size)

/-- `ThreadedDequePushRight` (threaded_deque.c:412-430) -/
def pushRight {P : Type} (x : P) : Pg P :=
  .lock <| expand <|
    rd (·.right) fun right => wr (fun m => { m with right := right + 1 }) <| wrCell right (some x) <|
    rd (·.right) fun right => rd (·.cap) fun cap => wr (fun m => { m with right := right % cap }) <|
    rd (·.size) fun n => wr (fun m => { m with size := n + 1 }) <|
    rd (·.size) fun size => .signal .nonEmpty <| .unlock <| .ret (.size size)

/-- `if (deque->size == 0) pthread_cond_broadcast(deque->cond_empty)`, unlock, return
(threaded_deque.c:212-220, 264-272, 321-331, 380-390). -/
def finish {P : Type} (r : Res P) : Pg P :=
  rd (·.size) fun n => if n = 0 then .broadcast .empty <| .unlock <| .ret r else .unlock <| .ret r

/-- `ThreadedDequePopLeft` after the wait (threaded_deque.c:196-220) -/
def popLeft {P : Type} : Pg P :=
  rd (·.size) fun n => if 0 < n then
    rd (·.left) fun left => rdCell left fun x => wrCell left none <|
    rd (·.cap) fun cap => wr (fun m => { m with left := (left + 1) % cap }) <|
    rd (·.size) fun n => wr (fun m => { m with size := n - 1 }) <| finish (.item x)
  else finish .nothing

/-- `ThreadedDequePopRight` after the wait (threaded_deque.c:248-272) -/
def popRight {P : Type} : Pg P :=
  rd (·.size) fun n => if 0 < n then
    rd (·.right) fun right => rd (·.cap) fun cap =>
    rdCell (down cap right) fun x => wrCell (down cap right) none <|
    wr (fun m => { m with right := down cap right }) <|
    rd (·.size) fun n => wr (fun m => { m with size := n - 1 }) <| finish (.item x)
  else finish .nothing

/-- The loop of `ThreadedDequePopLeftN` (threaded_deque.c:310-315). -/
def popLeftLoop {P : Type} : Nat → Nat → List P → (Nat → List P → Pg P) → Pg P
  | 0, left, acc, k => k left acc
  | n + 1, left, acc, k =>
    rdCell left fun x => wrCell left none <| rd (·.cap) fun cap => popLeftLoop n ((left + 1) % cap) (acc ++ [x]) k

/-- `ThreadedDequePopLeftN` after the wait (threaded_deque.c:302-331) -/
def popLeftN {P : Type} (num : Nat) : Pg P :=
  rd (·.size) fun n =>
    let size := if num < n then num else n
    if 0 < size then
      rd (·.left) fun left => popLeftLoop size left [] fun left xs =>
      wr (fun m => { m with left := left }) <|
      rd (·.size) fun n => wr (fun m => { m with size := n - size }) <| finish (.items xs)
    else finish (.items [])

/-- The loop of `ThreadedDequePopRightN` (threaded_deque.c:369-374). -/
def popRightLoop {P : Type} : Nat → Nat → List P → (Nat → List P → Pg P) → Pg P
  | 0, right, acc, k => k right acc
  | n + 1, right, acc, k =>
    rd (·.cap) fun cap => rdCell (down cap right) fun x => wrCell (down cap right) none <|
      popRightLoop n (down cap right) (acc ++ [x]) k

/-- `ThreadedDequePopRightN` after the wait (threaded_deque.c:361-390) -/
def popRightN {P : Type} (num : Nat) : Pg P :=
  rd (·.size) fun n =>
    let size := if num < n then num else n
    if 0 < size then
      rd (·.right) fun right => popRightLoop size right [] fun right xs =>
      wr (fun m => { m with right := right }) <|
      rd (·.size) fun n => wr (fun m => { m with size := n - size }) <| finish (.items xs)
    else finish (.items [])

/-- Before the wait (threaded_deque.c:179-194, 231-246, 285-300, 344-359): sleep when empty and the caller wants to wait. -/
def blocking {P : Type} (t : Int) (body : Pg P) : Pg P :=
  .lock <| rd (·.size) fun n => if n = 0 ∧ t ≠ 0 then .wait else body

/-- After `ThreadWait` returned (threaded_deque.c:185-193 and the same lines of the other functions). -/
def awake {P : Type} (body : Pg P) (timedOut : Bool) : Pg P :=
  if timedOut then .unlock (.ret .timedOut) else rd (·.size) fun n => if n = 0 then .wait else body

/-- The items of a copied structure, left to right: what `PopLeftN` of everything would hand out from it. -/
def itemsOf {P : Type} (d : D P) : List P := (List.range d.size).filterMap fun i => CMem.get d.data ((d.left + i) % d.cap)

/-- `ThreadedDequeCopy` (threaded_deque.c:501-512): the struct field by field, then the whole array. Failures to make the new mutex
and conditions (513-568) are not modelled. -/
def copy {P : Type} : Pg P :=
  .lock <| rd (·.left) fun left => rd (·.right) fun right => rd (·.size) fun size => rd (·.cap) fun cap =>
    rd (·.cap) fun cap1 =>
    .acc (fun m => (CMem.memcpy (List.replicate cap1 none) 0 m.data 0 cap).map fun d => (m, d)) fun data =>
    .unlock <| .ret (.copied (itemsOf ⟨data, left, right, size, cap⟩) cap)

/-- The functions of threaded_deque.c; `ThreadedDequeCount` 432-441, `ThreadedDequeCapacity` 443-452, `ThreadedDequeIsEmpty` 454-463,
`ThreadedDequeWaitEmpty` 465-499. -/
def code (P : Type) : Code (D P) (DOp P) Cond (Res P) where
  prog
    | .pushLeft x => pushLeft x
    | .pushRight x => pushRight x
    | .popLeft t => blocking t popLeft
    | .popRight t => blocking t popRight
    | .popLeftN n t => blocking t (popLeftN n)
    | .popRightN n t => blocking t (popRightN n)
    | .count => .lock <| rd (·.size) fun n => .unlock <| .ret (.size n)
    | .capacity => .lock <| rd (·.cap) fun n => .unlock <| .ret (.size n)
    | .isEmpty => .lock <| rd (·.size) fun n => .unlock <| .ret (.bool (n == 0))
    | .waitEmpty t => .lock <| rd (·.size) fun n =>
        if n = 0 then .unlock (.ret (.bool true)) else if t = 0 then .unlock (.ret (.bool false)) else .wait
    | .copy => copy
  resume
    | .popLeft _, b => awake popLeft b
    | .popRight _, b => awake popRight b
    | .popLeftN n _, b => awake (popLeftN n) b
    | .popRightN n _, b => awake (popRightN n) b
    | .waitEmpty _, b => if b then .unlock (.ret (.bool false)) else
        rd (·.size) fun n => if n ≠ 0 then .wait else .unlock (.ret (.bool true))
    | _, _ => .unlock (.ret .timedOut)                                    -- the other functions never wait
  cond
    | .waitEmpty _ => .empty
    | _ => .nonEmpty
  limited
    | .popLeft t | .popRight t | .popLeftN _ t | .popRightN _ t | .waitEmpty t => t != -1
    | _ => false

end TDT
