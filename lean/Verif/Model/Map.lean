import Verif.Model.Mem
import Verif.Model.Misc
/-!
# Model of libutils/array_map.c, hash_map.c, map.c, set.c

Keys and values are handles of types `K`, `V`; `eq` and `hash` are the user's `equal_fn` and `hash_fn`.  A call returns,
besides its result, what it passed to `destroy_key_fn` / `destroy_value_fn`, in call order (`Destroyed`).  `none` is
undefined behaviour (array overrun, failed `assert`).
-/
namespace CMap
open CMem

/-- Calls made to `destroy_key_fn` and `destroy_value_fn`. -/
structure Destroyed (K V : Type) where
  keys : List K := []
  vals : List V := []

/-- Calls of a first, then of a second piece of code. -/
def Destroyed.append {K V : Type} (a b : Destroyed K V) : Destroyed K V := ⟨a.keys ++ b.keys, a.vals ++ b.vals⟩

/-- The user supplied callbacks (map.c:81-84). -/
structure Fns (K : Type) where
  eq : K → K → Bool
  hash : K → Nat

/-! ## array_map.c -/

/-- array_map.c:30 -/
def TINY_LIMIT : Nat := 14

/-- `ArrayMap` (array_map_priv.h): `values` has `TINY_LIMIT` cells. -/
structure ArrayMap (K V : Type) where
  values : List (Option (K × V))
  size : Nat

/-- `ArrayMapNew` (array_map.c:32-42) -/
def arrayNew {K V : Type} : ArrayMap K V := ⟨List.replicate TINY_LIMIT none, 0⟩

/-- The search loop shared by insert/remove/get (array_map.c:51-53, 72-74, 91-93): first `i` in `[i, i+n)` whose key is equal. -/
def arrayFind {K V : Type} (f : Fns K) (m : List (Option (K × V))) (key : K) (i : Nat) : Nat → Option (Option Nat)
  | 0 => some none
  | n + 1 => do
    let kv ← get m i
    if f.eq kv.1 key then some (some i) else arrayFind f m key (i + 1) n

/-- `ArrayMapInsert` (array_map.c:44-68): 0 = full, 1 = replaced, 2 = new. -/
def arrayInsert {K V : Type} (f : Fns K) (m : ArrayMap K V) (key : K) (value : V) :
    Option (ArrayMap K V × Nat × Destroyed K V) :=
  if m.size = TINY_LIMIT then some (m, 0, {})
  else do
    match ← arrayFind f m.values key 0 m.size with
    | some i =>
      let old ← get m.values i
      let values ← write m.values i (some (key, value))
      some ({ m with values := values }, 1, ⟨[old.1], [old.2]⟩)
    | none =>
      let values ← write m.values m.size (some (key, value))
      some (⟨values, m.size + 1⟩, 2, {})

/-- `ArrayMapRemove` (array_map.c:70-87) -/
def arrayRemove {K V : Type} (f : Fns K) (m : ArrayMap K V) (key : K) :
    Option (ArrayMap K V × Bool × Destroyed K V) := do
  match ← arrayFind f m.values key 0 m.size with
  | some i =>
    let old ← get m.values i
    let values ← memmove m.values i (i + 1) (m.size - i - 1)
    some (⟨values, m.size - 1⟩, true, ⟨[old.1], [old.2]⟩)
  | none => some (m, false, {})

/-- `ArrayMapGet` (array_map.c:89-99) -/
def arrayGet {K V : Type} (f : Fns K) (m : ArrayMap K V) (key : K) : Option (Option (K × V)) := do
  match ← arrayFind f m.values key 0 m.size with
  | some i => let kv ← get m.values i; some (some kv)
  | none => some none

/-- `ArrayMapClear` (array_map.c:101-109) -/
def arrayClear {K V : Type} (m : ArrayMap K V) : Option (ArrayMap K V × Destroyed K V) := do
  let l ← getRange m.values 0 m.size
  some ({ m with size := 0 }, ⟨l.map (·.1), l.map (·.2)⟩)

/-- `ArrayMapSoftDestroy` (array_map.c:111-124): keys only. -/
def arraySoftDestroy {K V : Type} (m : ArrayMap K V) : Option (Destroyed K V) := do
  let l ← getRange m.values 0 m.size
  some ⟨l.map (·.1), []⟩

/-- `ArrayMapDestroy` (array_map.c:126-134) -/
def arrayDestroy {K V : Type} (m : ArrayMap K V) : Option (Destroyed K V) := do
  let (_, d) ← arrayClear m
  some d

/-- Calling `ArrayMapIteratorNext` (array_map.c:143-153) until it returns NULL, starting at position `pos`. -/
def arrayIterate {K V : Type} (m : ArrayMap K V) (pos : Nat) : Option (List (K × V)) :=
  if pos < m.size then do
    let kv ← get m.values pos
    let rest ← arrayIterate m (pos + 1)
    some (kv :: rest)
  else some []
termination_by m.size - pos

/-! ## hash_map.c -/

/-- hash_map.c:30 -/
def MAX_BUCKETS : Nat := 2 ^ 30
/-- hash_map.c:31 -/
def MIN_BUCKETS : Nat := 2 ^ 5

/-- `HashMap` (hash_map_priv.h). A bucket's chain is the list of its items, head first. -/
structure HashMap (K V : Type) where
  buckets : List (List (K × V))
  size : Nat
  initSize : Nat
  load : Nat
  maxThreshold : Nat
  minThreshold : Nat

/-- `(size_t) size * MAX_LOAD_FACTOR` (hash_map.c:32,59). The C expression is a double product truncated to `size_t`;
for the powers of two up to 2^30 it is exact. -/
def maxThr (size : Nat) : Nat := size * 3 / 4
/-- `(size_t) size * MIN_LOAD_FACTOR` (hash_map.c:33,60). 0.35 as a double is within 2^-54 of 7/20, and
`7 * 2^k / 20` is never an integer, so truncation gives this value. -/
def minThr (size : Nat) : Nat := size * 7 / 20

/-- `HashMapNew` (hash_map.c:35-64) -/
def hashNew {K V : Type} (initSize : Nat) : HashMap K V :=
  let s := min (max initSize MIN_BUCKETS) MAX_BUCKETS
  let size := if Misc.ispow2 s then s else (Misc.upperPowerOfTwo (BitVec.ofNat 64 s)).toNat
  ⟨List.replicate size [], size, size, 0, maxThr size, minThr size⟩

/-- `HashMapGetBucket` (hash_map.c:66-72), with its `assert(ISPOW2(size))`. -/
def getBucket {K : Type} (f : Fns K) (size : Nat) (key : K) : Option Nat :=
  if Misc.ispow2 size then some (f.hash key &&& (size - 1)) else none

/-- The inner `while` of `HashMapResize` (hash_map.c:94-104): move a chain, item by item, to the heads of the new buckets. -/
def moveChain {K V : Type} (f : Fns K) (size : Nat) : List (List (K × V)) → List (K × V) → Option (List (List (K × V)))
  | nb, [] => some nb
  | nb, kv :: rest => do
    let b ← getBucket f size kv.1
    let chain ← read nb b
    let nb ← write nb b (kv :: chain)
    moveChain f size nb rest

/-- The outer `for` of `HashMapResize` (hash_map.c:88-105) over the old buckets. -/
def moveAll {K V : Type} (f : Fns K) (size : Nat) : List (List (K × V)) → List (List (K × V)) → Option (List (List (K × V)))
  | nb, [] => some nb
  | nb, c :: cs => do
    let nb ← moveChain f size nb c
    moveAll f size nb cs

/-- `HashMapResize` (hash_map.c:74-104) -/
def resize {K V : Type} (f : Fns K) (m : HashMap K V) (newSize : Nat) : Option (HashMap K V) := do
  let nb ← moveAll f newSize (List.replicate newSize []) m.buckets
  some { m with buckets := nb, size := newSize, maxThreshold := maxThr newSize, minThreshold := minThr newSize }

/-- The search loop of `HashMapInsert` (hash_map.c:113-127): replace key and value of the first equal item;
`none` when there is no equal item. -/
def chainReplace {K V : Type} (f : Fns K) (key : K) (value : V) : List (K × V) → Option ((K × V) × List (K × V))
  | [] => none
  | kv :: rest =>
    if f.eq kv.1 key then some (kv, (key, value) :: rest)
    else match chainReplace f key value rest with
      | some (old, rest') => some (old, kv :: rest')
      | none => none

/-- `HashMapInsert` (hash_map.c:109-140) -/
def hashInsert {K V : Type} (f : Fns K) (m : HashMap K V) (key : K) (value : V) :
    Option (HashMap K V × Bool × Destroyed K V) := do
  let b ← getBucket f m.size key
  let chain ← read m.buckets b
  match chainReplace f key value chain with
  | some (old, chain') =>
    let bs ← write m.buckets b chain'
    some ({ m with buckets := bs }, true, ⟨[old.1], [old.2]⟩)
  | none =>
    let bs ← write m.buckets b ((key, value) :: chain)
    let m := { m with buckets := bs, load := m.load + 1 }
    if m.load > m.maxThreshold ∧ m.size < MAX_BUCKETS then
      let m ← resize f m (m.size * 2)
      some (m, false, {})
    else some (m, false, {})

/-- The search loop of `HashMapRemove` (hash_map.c:150-156): unlink the first equal item. -/
def chainRemove {K V : Type} (f : Fns K) (key : K) : List (K × V) → Option ((K × V) × List (K × V))
  | [] => none
  | kv :: rest =>
    if f.eq kv.1 key then some (kv, rest)
    else match chainRemove f key rest with
      | some (old, rest') => some (old, kv :: rest')
      | none => none

/-- `HashMapRemove` (hash_map.c:142-173) -/
def hashRemove {K V : Type} (f : Fns K) (m : HashMap K V) (key : K) :
    Option (HashMap K V × Bool × Destroyed K V) := do
  let b ← getBucket f m.size key
  let chain ← read m.buckets b
  match chainRemove f key chain with
  | some (old, chain') =>
    let bs ← write m.buckets b chain'
    if m.load = 0 then none else
    let m := { m with buckets := bs, load := m.load - 1 }
    if m.load < m.minThreshold ∧ m.size > m.initSize then
      let m ← resize f m (m.size / 2)
      some (m, true, ⟨[old.1], [old.2]⟩)
    else some (m, true, ⟨[old.1], [old.2]⟩)
  | none => some (m, false, {})

/-- The search loop of `HashMapGet` (hash_map.c:179-187). -/
def chainFind {K V : Type} (f : Fns K) (key : K) : List (K × V) → Option (K × V)
  | [] => none
  | kv :: rest => if f.eq kv.1 key then some kv else chainFind f key rest

/-- `HashMapGet` (hash_map.c:175-190) -/
def hashGet {K V : Type} (f : Fns K) (m : HashMap K V) (key : K) : Option (Option (K × V)) := do
  let b ← getBucket f m.size key
  let chain ← read m.buckets b
  some (chainFind f key chain)

/-- `FreeBucketListItem` (hash_map.c:192-203): destroys the tail first, decrementing `load` for each item. -/
def freeChain {K V : Type} : Nat → List (K × V) → Option (Nat × Destroyed K V)
  | load, [] => some (load, {})
  | load, kv :: rest => do
    let (load, d) ← freeChain load rest
    if load = 0 then none else some (load - 1, d.append ⟨[kv.1], [kv.2]⟩)

/-- The loop of `HashMapClear` (hash_map.c:220-227) over the buckets. -/
def freeAll {K V : Type} : Nat → List (List (K × V)) → Option (Nat × Destroyed K V)
  | load, [] => some (load, {})
  | load, c :: cs => do
    let (load, d) ← freeChain load c
    let (load, d') ← freeAll load cs
    some (load, d.append d')

/-- `HashMapClear` (hash_map.c:218-229), with its final `assert(load == 0)`. -/
def hashClear {K V : Type} (m : HashMap K V) : Option (HashMap K V × Destroyed K V) := do
  let (load, d) ← freeAll m.load m.buckets
  if load = 0 then some ({ m with buckets := List.replicate m.buckets.length [], load := 0 }, d) else none

/-- `HashMapSoftDestroy` (hash_map.c:206-247): the same walk, keys only. -/
def hashSoftDestroy {K V : Type} (m : HashMap K V) : Option (Destroyed K V) := do
  let (_, d) ← freeAll m.load m.buckets
  some { d with vals := [] }

/-- `HashMapDestroy` (hash_map.c:249-257) -/
def hashDestroy {K V : Type} (m : HashMap K V) : Option (Destroyed K V) := do
  let (_, d) ← hashClear m
  some d

/-- Calling `HashMapIteratorNext` (hash_map.c:313-328) until it returns NULL, with `cur` the remaining chain of the current
bucket. -/
def hashIterate {K V : Type} (m : HashMap K V) : Nat → List (K × V) → Option (List (K × V))
  | bucket, kv :: cur => do
    let rest ← hashIterate m bucket cur
    some (kv :: rest)
  | bucket, [] =>
    if bucket + 1 < m.size then do
      let c ← read m.buckets (bucket + 1)
      hashIterate m (bucket + 1) c
    else some []
termination_by bucket cur => (m.size - bucket, cur.length)

/-! ## map.c -/

/-- `Map_` (map.c:45-54): the union, tagged by `hash_fn != NULL`. -/
inductive Map (K V : Type) where
  | arr (m : ArrayMap K V)
  | hash (m : HashMap K V)

/-- `MapNew` (map.c:81-110) -/
def mapNew {K V : Type} : Map K V := .arr arrayNew

/-- The loop of `ConvertToHashMap` (map.c:147-152); the destructor calls of the inserts are kept. -/
def insertAll {K V : Type} (f : Fns K) : HashMap K V → List (K × V) → Option (HashMap K V × Destroyed K V)
  | h, [] => some (h, {})
  | h, kv :: rest => do
    let (h, _, d) ← hashInsert f h kv.1 kv.2
    let (h, d') ← insertAll f h rest
    some (h, d.append d')

/-- `ConvertToHashMap` (map.c:134-159); `DEFAULT_HASHMAP_INIT_SIZE` is 128 (map.c:43). -/
def convert {K V : Type} (f : Fns K) (m : ArrayMap K V) : Option (HashMap K V × Destroyed K V) := do
  let l ← getRange m.values 0 m.size
  insertAll f (hashNew 128) l

/-- `MapInsert` (map.c:161-183) -/
def mapInsert {K V : Type} (f : Fns K) (m : Map K V) (key : K) (value : V) :
    Option (Map K V × Bool × Destroyed K V) :=
  match m with
  | .arr a => do
    let (a', ret, d) ← arrayInsert f a key value
    if ret ≠ 0 then some (.arr a', ret == 1, d)
    else
      let (h, d1) ← convert f a'
      let (h, r, d2) ← hashInsert f h key value
      some (.hash h, r, d1.append d2)
  | .hash h => do
    let (h, r, d) ← hashInsert f h key value
    some (.hash h, r, d)

/-- `MapGetRaw` (map.c:189-201) -/
def mapGetRaw {K V : Type} (f : Fns K) (m : Map K V) (key : K) : Option (Option (K × V)) :=
  match m with
  | .arr a => arrayGet f a key
  | .hash h => hashGet f h key

/-- `MapHasKey` (map.c:203-208) -/
def mapHasKey {K V : Type} (f : Fns K) (m : Map K V) (key : K) : Option Bool := do
  let r ← mapGetRaw f m key
  some r.isSome

/-- `MapGet` (map.c:213-224); `none` inside is the NULL result. -/
def mapGet {K V : Type} (f : Fns K) (m : Map K V) (key : K) : Option (Option V) := do
  let r ← mapGetRaw f m key
  some (r.map (·.2))

/-- `MapRemove` (map.c:226-238) -/
def mapRemove {K V : Type} (f : Fns K) (m : Map K V) (key : K) : Option (Map K V × Bool × Destroyed K V) :=
  match m with
  | .arr a => do
    let (a, r, d) ← arrayRemove f a key
    some (.arr a, r, d)
  | .hash h => do
    let (h, r, d) ← hashRemove f h key
    some (.hash h, r, d)

/-- `MapClear` (map.c:240-252) -/
def mapClear {K V : Type} (m : Map K V) : Option (Map K V × Destroyed K V) :=
  match m with
  | .arr a => do
    let (a, d) ← arrayClear a
    some (.arr a, d)
  | .hash h => do
    let (h, d) ← hashClear h
    some (.hash h, d)

/-- `MapDestroy` (map.c:270-284) -/
def mapDestroy {K V : Type} (m : Map K V) : Option (Destroyed K V) :=
  match m with
  | .arr a => arrayDestroy a
  | .hash h => hashDestroy h

/-- `MapSoftDestroy` (map.c:254-268) -/
def mapSoftDestroy {K V : Type} (m : Map K V) : Option (Destroyed K V) :=
  match m with
  | .arr a => arraySoftDestroy a
  | .hash h => hashSoftDestroy h

/-- `MapIteratorInit` then `MapIteratorNext` until NULL (map.c:325-353). -/
def mapIterate {K V : Type} (m : Map K V) : Option (List (K × V)) :=
  match m with
  | .arr a => arrayIterate a 0
  | .hash h => do
    let c ← read h.buckets 0
    hashIterate h 0 c

/-- `MapSize` (map.c:112-132): the array counts, the hash map is iterated. -/
def mapSize {K V : Type} (m : Map K V) : Option Nat :=
  match m with
  | .arr a => some a.size
  | .hash _ => do
    let l ← mapIterate m
    some l.length

/-- The loop of `MapContainsSameKeys` (map.c:294-301): `none` inside = some key missing, otherwise the count. -/
def sameKeysLoop {K V W : Type} (f : Fns K) (m2 : Map K W) : List (K × V) → Nat → Option (Option Nat)
  | [], n => some (some n)
  | kv :: rest, n => do
    if ← mapHasKey f m2 kv.1 then sameKeysLoop f m2 rest (n + 1) else some none

/-- `MapContainsSameKeys` (map.c:286-303) -/
def mapContainsSameKeys {K V W : Type} (f : Fns K) (m1 : Map K V) (m2 : Map K W) : Option Bool := do
  let l ← mapIterate m1
  match ← sameKeysLoop f m2 l 0 with
  | none => some false
  | some n =>
    let s ← mapSize m2
    some (n == s)

/-! ## set.c: a set is a map from each element to itself, without value destructor -/

/-- `SetAdd` (set.c:48-52) -/
def setAdd {K : Type} (f : Fns K) (s : Map K K) (x : K) : Option (Map K K × Destroyed K K) := do
  let (s, _, d) ← mapInsert f s x x
  some (s, d)

/-- `SetIteratorNext` until NULL (set.c:91-95) -/
def setElements {K : Type} (s : Map K K) : Option (List K) := do
  let l ← mapIterate s
  some (l.map (·.1))

/-- The loop of `SetJoin` (set.c:107-114); `copy` is the copy function (identity when NULL). -/
def joinLoop {K : Type} (f : Fns K) (copy : K → K) : Map K K → List K → Option (Map K K × Destroyed K K)
  | s, [] => some (s, {})
  | s, x :: xs => do
    let (s, d) ← setAdd f s (copy x)
    let (s, d') ← joinLoop f copy s xs
    some (s, d.append d')

/-- `SetJoin` (set.c:97-115), for two different sets. -/
def setJoin {K : Type} (f : Fns K) (copy : K → K) (s other : Map K K) : Option (Map K K × Destroyed K K) := do
  let l ← setElements other
  joinLoop f copy s l

/-- `SetIsEqual` (set.c:78-83) -/
def setIsEqual {K : Type} (f : Fns K) (s1 s2 : Map K K) : Option Bool := mapContainsSameKeys f s1 s2

/-- The scan of `StringSetAddSplit` (set.c:150-176): pieces added, in order; `prev` is the piece read so far. -/
def splitPieces (delim : Char) : (prev : List Char) → List Char → List (List Char)
  | prev, [] => if prev.length > 0 then [prev] else []
  | prev, c :: cs => if c = delim then prev :: splitPieces delim [] cs else splitPieces delim (prev ++ [c]) cs

/-- `StringSetAddSplit` (set.c:145-177) -/
def addSplit (f : Fns (List Char)) (delim : Char) (s : Map (List Char) (List Char)) (str : List Char) :
    Option (Map (List Char) (List Char) × Destroyed (List Char) (List Char)) :=
  joinLoop f id s (splitPieces delim [] str)

/-- The loop of `StringSetToBuffer` (set.c:131-140). -/
def toBufferLoop (delim : Char) (size : Nat) : Nat → List (List Char) → List Char
  | _, [] => []
  | pos, x :: xs => x ++ (if (pos : Int) < (size : Int) - 1 then [delim] else []) ++ toBufferLoop delim size (pos + 1) xs

/-- `StringSetToBuffer` (set.c:117-143); the returned buffer's contents (see Model/Buffer for `BufferAppend`). -/
def setToBuffer (delim : Char) (s : Map (List Char) (List Char)) : Option (List Char) := do
  let l ← setElements s
  let size ← mapSize s
  some (toBufferLoop delim size 0 l)

end CMap
