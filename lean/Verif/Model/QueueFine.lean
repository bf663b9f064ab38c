import Verif.Model.DequeThreads
/-!
# Model of libutils/threaded_queue.c, memory access by memory access

As Model/DequeThreads.lean; the structure is `TQ.Q` (Model/ThreadedQueue.lean). The destructor is not NULL and touches only its item.
-/
namespace TQF
open Mon TQ BlockSpec
open TDT (Cond)

abbrev Pg (P : Type) := Prog (Q P) Cond (Res P)

/-- Reading a field (threaded_queue.c:43-53). -/
def rd {P β : Type} (f : Q P → β) (k : β → Pg P) : Pg P := .acc (fun m => some (m, f m)) k
/-- Writing a field (threaded_queue.c:43-53). -/
def wr {P : Type} (g : Q P → Q P) (k : Pg P) : Pg P := .acc (fun m => some (g m, ())) fun _ => k
/-- Reading the item in a cell of `data` (threaded_queue.c:48); a cell holding no item is undefined here. -/
def rdCell {P : Type} (i : Nat) (k : P → Pg P) : Pg P := .acc (fun m => (CMem.get m.data i).map fun x => (m, x)) k
/-- Writing a cell of `data` (threaded_queue.c:48). -/
def wrCell {P : Type} (i : Nat) (v : Option P) (k : Pg P) : Pg P :=
  .acc (fun m => (CMem.write m.data i v).map fun d => ({ m with data := d }, ())) fun _ => k
/-- A failed assertion (threaded_queue.c:468, 490, 550), or a loop that does not end. -/
def fail {P : Type} : Pg P := .acc (fun _ => none) (fun (_ : Unit) => .wait)

/-- `queue->tail %= queue->capacity` (threaded_queue.c:575) -/
def wrap {P : Type} (k : Pg P) : Pg P :=
  rd (·.tail) fun tail => rd (·.cap) fun cap => wr (fun m => { m with tail := tail % cap }) k

/-- `ExpandIfNecessary` (threaded_queue.c:547-576) -/
def expand {P : Type} (k : Pg P) : Pg P :=
  rd (·.size) fun size => rd (·.cap) fun cap =>
    if cap < size then fail else
    if size = cap then
      rd (·.tail) fun tail => rd (·.head) fun head =>
        if tail ≤ head then
          rd (·.cap) fun old =>
          wr (fun m => { m with cap := old * 2 }) <|
          .acc (fun m => some ({ m with data := CMem.realloc m.data (old * 2) }, ())) fun _ =>
          rd (·.tail) fun tail =>
          .acc (fun m => (CMem.memmove m.data old 0 tail).map fun d => ({ m with data := d }, ())) fun _ =>
          rd (·.tail) fun tail => wr (fun m => { m with tail := tail + old }) <| wrap k
        else
          rd (·.cap) fun old => wr (fun m => { m with cap := old * 2 }) <|
          .acc (fun m => some ({ m with data := CMem.realloc m.data (old * 2) }, ())) fun _ => wrap k
    else wrap k

/-- `ExpandIfNecessary(queue); queue->data[queue->tail++] = item; queue->size++;` (threaded_queue.c:288-290, 308-311, 486-488) -/
def pushOne {P : Type} (x : P) (k : Pg P) : Pg P :=
  expand <| rd (·.tail) fun tail => wr (fun m => { m with tail := tail + 1 }) <| wrCell tail (some x) <|
    rd (·.size) fun n => wr (fun m => { m with size := n + 1 }) k

/-- The loop of `ThreadedQueuePushN` (threaded_queue.c:305-312). -/
def pushAll {P : Type} : List P → Pg P → Pg P
  | [], k => k
  | x :: xs, k => pushOne x (pushAll xs k)

/-- Reading the size, signalling, unlocking (threaded_queue.c:291-296, 313-318). -/
def pushed {P : Type} : Pg P := rd (·.size) fun size => .signal .nonEmpty <| .unlock <| .ret (.size size)

/-- `if (queue->size == 0) pthread_cond_broadcast(queue->cond_empty)`, unlock, return (threaded_queue.c:212-220, 269-279). -/
def finish {P : Type} (r : Res P) : Pg P :=
  rd (·.size) fun n => if n = 0 then .broadcast .empty <| .unlock <| .ret r else .unlock <| .ret r

/-- `ThreadedQueuePop` after the wait (threaded_queue.c:196-220) -/
def pop {P : Type} : Pg P :=
  rd (·.size) fun n => if 0 < n then
    rd (·.head) fun head => rdCell head fun x => wrCell head none <|
    rd (·.cap) fun cap => wr (fun m => { m with head := (head + 1) % cap }) <|
    rd (·.size) fun n => wr (fun m => { m with size := n - 1 }) <| finish (.item x)
  else finish .nothing

/-- The loop of `ThreadedQueuePopN` (threaded_queue.c:258-263). -/
def popLoop {P : Type} : Nat → Nat → List P → (Nat → List P → Pg P) → Pg P
  | 0, head, acc, k => k head acc
  | n + 1, head, acc, k =>
    rdCell head fun x => wrCell head none <| rd (·.cap) fun cap => popLoop n ((head + 1) % cap) (acc ++ [x]) k

/-- `ThreadedQueuePopN` after the wait (threaded_queue.c:250-279) -/
def popN {P : Type} (num : Nat) : Pg P :=
  rd (·.size) fun n =>
    let size := if num < n then num else n
    if 0 < size then
      rd (·.head) fun head => popLoop size head [] fun head xs =>
      wr (fun m => { m with head := head }) <|
      rd (·.size) fun n => wr (fun m => { m with size := n - size }) <| finish (.items xs)
    else finish (.items [])

/-- `queue->size--` (threaded_queue.c:526, 537); below zero is undefined here. -/
def decSize {P : Type} (k : Pg P) : Pg P :=
  rd (·.size) fun n => if n = 0 then fail else wr (fun m => { m with size := n - 1 }) k

/-- The loop of `DestroyRange` (threaded_queue.c:529-538); `fuel` bounds the iterations. -/
def destroyLoop {P : Type} (stop : Nat) : Nat → Nat → List P → (List P → Pg P) → Pg P
  | 0, _, _, _ => fail
  | fuel + 1, i, acc, k =>
    if i = stop then k acc else
    rd (·.cap) fun cap => rdCell (i % cap) fun x => decSize <| destroyLoop stop fuel (i % cap + 1) (acc ++ [x]) k

/-- `DestroyRange` (threaded_queue.c:508-540) from `head` to `tail` -/
def destroyRange {P : Type} (k : List P → Pg P) : Pg P :=
  rd (·.head) fun start => rd (·.tail) fun stop => rd (·.cap) fun cap =>
    if cap < start ∨ cap < stop then k [] else
    rd (·.size) fun n => if 0 < n then
      rdCell start fun x => decSize <| destroyLoop stop (cap + 1) (start + 1) [x] k
    else k []

/-- `queue->head = 0; queue->tail = queue->head;` (threaded_queue.c:469-470, 483-484) -/
def reset {P : Type} (k : Pg P) : Pg P :=
  wr (fun m => { m with head := 0 }) <| rd (·.head) fun head => wr (fun m => { m with tail := head }) k

/-- `ThreadedQueueClear` (threaded_queue.c:462-474) -/
def clear {P : Type} : Pg P :=
  .lock <| destroyRange fun xs => rd (·.size) fun n => if n ≠ 0 then fail else
    reset <| .broadcast .empty <| .unlock <| .ret (.destroyed xs 0)

/-- `ThreadedQueueClearAndPush` (threaded_queue.c:476-496) -/
def clearAndPush {P : Type} (x : P) : Pg P :=
  .lock <| destroyRange fun xs => reset <| pushOne x <| rd (·.size) fun size => rd (·.size) fun n =>
    if n ≠ 1 then fail else .signal .nonEmpty <| .unlock <| .ret (.destroyed xs size)

/-- Before the wait (threaded_queue.c:177-194, 230-248). -/
def blocking {P : Type} (t : Int) (body : Pg P) : Pg P :=
  .lock <| rd (·.size) fun n => if n = 0 ∧ t ≠ 0 then .wait else body

/-- After `ThreadWait` returned (threaded_queue.c:185-193, 238-247). -/
def awake {P : Type} (body : Pg P) (timedOut : Bool) : Pg P :=
  if timedOut then .unlock (.ret .timedOut) else rd (·.size) fun n => if n = 0 then .wait else body

/-- The items of a copied structure, oldest first. -/
def itemsOf {P : Type} (d : Q P) : List P := (List.range d.size).filterMap fun i => CMem.get d.data ((d.head + i) % d.cap)

/-- `ThreadedQueueCopy` (threaded_queue.c:391-402); failures to make the new mutex and conditions (404-457) are not modelled. -/
def copy {P : Type} : Pg P :=
  .lock <| rd (·.head) fun head => rd (·.tail) fun tail => rd (·.size) fun size => rd (·.cap) fun cap =>
    rd (·.cap) fun cap1 =>
    .acc (fun m => (CMem.memcpy (List.replicate cap1 none) 0 m.data 0 cap).map fun d => (m, d)) fun data =>
    .unlock <| .ret (.copied (itemsOf ⟨data, head, tail, size, cap⟩) cap)

/-- The functions of threaded_queue.c; `ThreadedQueuePush` 282-297, `ThreadedQueuePushN` 299-319, `ThreadedQueueCount` 321-330,
`ThreadedQueueCapacity` 332-341, `ThreadedQueueIsEmpty` 343-352, `ThreadedQueueWaitEmpty` 354-389. -/
def code (P : Type) : Code (Q P) (QOp P) Cond (Res P) where
  prog
    | .push x => .lock <| pushOne x pushed
    | .pushN xs => .lock <| pushAll xs pushed
    | .pop t => blocking t pop
    | .popN n t => blocking t (popN n)
    | .clear => clear
    | .clearAndPush x => clearAndPush x
    | .count => .lock <| rd (·.size) fun n => .unlock <| .ret (.size n)
    | .capacity => .lock <| rd (·.cap) fun n => .unlock <| .ret (.size n)
    | .isEmpty => .lock <| rd (·.size) fun n => .unlock <| .ret (.bool (n == 0))
    | .waitEmpty t => .lock <| rd (·.size) fun n =>
        if n ≠ 0 then if t ≠ 0 then .wait else .unlock (.ret (.bool false)) else .unlock (.ret (.bool true))
    | .copy => copy
  resume
    | .pop _, b => awake pop b
    | .popN n _, b => awake (popN n) b
    | .waitEmpty _, b => if b then .unlock (.ret (.bool false)) else
        rd (·.size) fun n => if n ≠ 0 then .wait else .unlock (.ret (.bool true))
    | _, _ => .unlock (.ret .timedOut)                                    -- the other functions never wait
  cond
    | .waitEmpty _ => .empty
    | _ => .nonEmpty
  limited
    | .pop t | .popN _ t | .waitEmpty t => t != -1
    | _ => false

end TQF
