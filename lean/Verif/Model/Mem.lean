/-!
# Memory conventions shared by all models

A C allocation of `n` cells is a `List` of length `n`.  A read or a write outside it is undefined behaviour in C.  All
models are written in the `Option` monad, where the outcome `none` means *undefined behaviour happened* (out-of-bounds
access, NULL dereference, failed `assert`).  Consequently a theorem that says `f x = some r` also says that `f` performed
no out-of-bounds access on `x`.
-/
namespace CMem

/-- Read cell `i` of an allocation; `none` is an out-of-bounds read (undefined behaviour). -/
def read {α : Type u} (m : List α) (i : Nat) : Option α := m[i]?

/-- Write cell `i` of an allocation; `none` is an out-of-bounds write (undefined behaviour). -/
def write {α : Type u} (m : List α) (i : Nat) (v : α) : Option (List α) :=
  if i < m.length then some (m.set i v) else none

theorem read_eq {α : Type u} {m : List α} {i : Nat} (h : i < m.length) : read m i = some m[i] := by
  simp [read, h]

theorem write_eq {α : Type u} {m : List α} {i : Nat} {v : α} (h : i < m.length) :
    write m i v = some (m.set i v) := by
  simp [write, h]

theorem write_oob {α : Type u} {m : List α} {i : Nat} {v : α} (h : m.length ≤ i) : write m i v = none := by
  simp [write, Nat.not_lt.mpr h]

end CMem

/-! ## Allocations with uninitialised cells

A cell is `none` while uninitialised.  Reading an uninitialised cell is reported as undefined behaviour as well. -/
namespace CMem

/-- Read an initialised cell. -/
def get {α : Type u} (m : List (Option α)) (i : Nat) : Option α := (m[i]?).join

/-- `xrealloc` to `n` cells: keeps the common prefix, new cells are uninitialised (alloc.c: xrealloc exits on failure). -/
def realloc {α : Type u} (m : List (Option α)) (n : Nat) : List (Option α) :=
  m.take n ++ List.replicate (n - m.length) none

/-- `memmove(m + dst, m + src, n)` inside one allocation. -/
def memmove {α : Type u} (m : List α) (dst src n : Nat) : Option (List α) :=
  if dst + n ≤ m.length ∧ src + n ≤ m.length then
    some (m.take dst ++ (m.drop src).take n ++ m.drop (dst + n))
  else none

/-- `memcpy(d + dst, s + src, n)` between two allocations. -/
def memcpy {α : Type u} (d : List α) (dst : Nat) (s : List α) (src n : Nat) : Option (List α) :=
  if dst + n ≤ d.length ∧ src + n ≤ s.length then
    some (d.take dst ++ (s.drop src).take n ++ d.drop (dst + n))
  else none

/-- Read the initialised cells `start, …, start+n-1`. -/
def getRange {α : Type u} (m : List (Option α)) (start : Nat) : Nat → Option (List α)
  | 0 => some []
  | n + 1 => do
    let x ← get m start
    let xs ← getRange m (start + 1) n
    some (x :: xs)

end CMem
