import Verif.Spec.ThreadedStack
/-!
# Model of libutils/threaded_stack.c, memory access by memory access

Every function is a program of single accesses to the shared structure (`size`, `capacity`, one cell of `data`), with the
`ThreadLock`/`ThreadUnlock` calls as instructions of the program; threads are interleaved between any two instructions.
Nothing but the lock instructions keeps two threads from working on the structure at the same time.
Creating and destroying the stack is not interleaved with anything (`ThreadedStackNew`, `ThreadedStackDestroy`).
-/
namespace TStack
open TStackSpec Lin

/-- The shared `Stack base` (stack_base.c:46-51). A cell is `none` while NULL or uninitialised. -/
structure Mem (α : Type) where
  data : List (Option α)
  size : Nat
  capacity : Nat

/-- Rest of a function: instructions over the shared structure. -/
inductive Prog (α : Type) where
  | lock (k : Prog α)
  | unlock (k : Prog α)
  | rdSize (k : Nat → Prog α)
  | wrSize (n : Nat) (k : Prog α)
  | rdCap (k : Nat → Prog α)
  | wrCap (n : Nat) (k : Prog α)
  | rd (i : Nat) (k : Option α → Prog α)
  | wr (i : Nat) (v : Option α) (k : Prog α)
  | realloc (n : Nat) (k : Prog α)
  | ret (r : Res α)

/-- `StackPop` (stack.c:58-75). -/
def pop {α : Type} (k : Option α → Prog α) : Prog α :=
  .rdSize fun size =>
    if size > 0 then
      .rd (size - 1) fun item => .wr (size - 1) none (.wrSize (size - 1) (k item))
    else k none

/-- `ExpandIfNecessary` (stack.c:96-106). -/
def expand {α : Type} (k : Prog α) : Prog α :=
  .rdSize fun size => .rdCap fun cap =>
    if size = cap then .wrCap (cap * 2) (.realloc (cap * 2) k) else k

/-- `stack->data[stack->size++] = item` (stack.c:113, 121). -/
def store {α : Type} (x : α) (k : Prog α) : Prog α :=
  .rdSize fun size => .wrSize (size + 1) (.wr size (some x) k)

/-- `memcpy` of the first `n` cells (threaded_stack.c:180), from cell `i` on; `acc` holds what was read, last one first. -/
def readCells {α : Type} : Nat → Nat → List (Option α) → (List (Option α) → Prog α) → Prog α
  | 0, _, acc, k => k acc
  | n + 1, i, acc, k => .rd i fun v => readCells n (i + 1) (v :: acc) k

/-- The functions of threaded_stack.c:
`ThreadedStackPush` 119-126, `ThreadedStackPushReportCount` 128-137, `ThreadedStackPop` 108-117, `ThreadedStackCount` 139-148,
`ThreadedStackCapacity` 151-160, `ThreadedStackIsEmpty` 162-171, `ThreadedStackCopy` 173-213 (a failure to make the new mutex is
not modelled; cells that were never written are not counted as items of the copy). -/
def prog {α : Type} : Op α → Prog α
  | .push x => .lock (expand (store x (.unlock (.ret .unit))))
  | .pushReport x => .lock (expand (store x (.rdSize fun n => .unlock (.ret (.num n)))))
  | .pop => .lock (pop fun item => .unlock (.ret (.item item)))
  | .count => .lock (.rdSize fun n => .unlock (.ret (.num n)))
  | .capacity => .lock (.rdCap fun n => .unlock (.ret (.num n)))
  | .isEmpty => .lock (.rdSize fun n => .unlock (.ret (.bool (n == 0))))
  | .copy => .lock (.rdCap fun cap => .rdSize fun n => readCells n 0 [] fun vs => .unlock (.ret (.copied (vs.filterMap id) cap)))

/-- Threads, the structure, the holder of the mutex and what happened so far. A thread is `none` outside of any call. -/
structure State (α : Type) where
  mem : Mem α
  lock : Option Nat
  th : Nat → Option (Prog α)
  hist : List (Ev (Op α) (Res α))

/-- `ThreadedStackNew` (threaded_stack.c:48-81) with `StackInit` (stack_base.c:54-67): capacity 0 means 16. -/
def init {α : Type} (cap : Nat) : State α :=
  let c := if cap = 0 then 16 else cap
  ⟨⟨List.replicate c none, 0, c⟩, none, fun _ => none, []⟩

/-- A thread enters a function, or executes its next instruction. -/
inductive Action (α : Type) where
  | call (t : Nat) (o : Op α)
  | run (t : Nat)

/-- Thread `t` continues with `p`. -/
def setTh {α : Type} (th : Nat → Option (Prog α)) (t : Nat) (p : Option (Prog α)) : Nat → Option (Prog α) :=
  fun u => if u = t then p else th u

/-- One instruction. Accesses outside of `data` are undefined (`none`); `ThreadLock` waits while the mutex is held
(mutex.c:31-49), `ThreadUnlock` by a thread not holding it ends the process (mutex.c:51-68), `none` here. -/
def instr {α : Type} (m : Mem α) (lock : Option Nat) (t : Nat) : Prog α → Option (Mem α × Option Nat × Prog α)
  | .lock k => if lock = none then some (m, some t, k) else none
  | .unlock k => if lock = some t then some (m, none, k) else none
  | .rdSize k => some (m, lock, k m.size)
  | .wrSize n k => some ({ m with size := n }, lock, k)
  | .rdCap k => some (m, lock, k m.capacity)
  | .wrCap n k => some ({ m with capacity := n }, lock, k)
  | .rd i k => match m.data[i]? with
    | some v => some (m, lock, k v)
    | none => none
  | .wr i v k => if i < m.data.length then some ({ m with data := m.data.set i v }, lock, k) else none
  | .realloc n k => some ({ m with data := m.data.take n ++ List.replicate (n - m.data.length) none }, lock, k)
  | .ret _ => none

/-- One step of a schedule. -/
def step {α : Type} (s : State α) : Action α → Option (State α)
  | .call t o => match s.th t with
    | none => some { s with th := setTh s.th t (some (prog o)), hist := s.hist ++ [.call t o] }
    | some _ => none
  | .run t => match s.th t with
    | none => none
    | some (.ret r) => some { s with th := setTh s.th t none, hist := s.hist ++ [.ret t r] }
    | some p => match instr s.mem s.lock t p with
      | some (m, l, k) => some { s with mem := m, lock := l, th := setTh s.th t (some k) }
      | none => none

/-- A schedule. -/
def run {α : Type} : State α → List (Action α) → Option (State α)
  | s, [] => some s
  | s, a :: as => match step s a with
    | some s => run s as
    | none => none

end TStack
