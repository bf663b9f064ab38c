import Verif.Model.Alloc
/-! # What is expected of the allocation functions (C185) -/
namespace Alloc

/-- The text at a pointer: up to the NUL. -/
def textAt (str : Bytes) : Bytes := str.takeWhile (· ≠ 0)

/-- How many bytes a request asks for. -/
def asks : Req → Nat
  | .malloc size => size
  | .calloc nmemb size => nmemb * size
  | .realloc _ size => size
  | .strdup str => (textAt str).length + 1
  | .strndup str n => min (textAt str).length n + 1
  | .memdup _ size => size

/-- The source of a copy may be read as far as the copy does. -/
def Readable : Req → Prop
  | .strdup str => 0 ∈ str
  | .strndup str n => 0 ∈ str ∨ n ≤ str.length
  | .memdup data size => size ≤ data.length
  | _ => True

/-- The block a request is to resize. -/
def resizes : Req → Option Nat
  | .realloc p _ => p
  | _ => none

/-- What the new block has to hold; `old` is the block resized. -/
def content (old : Block) : Req → Block
  | .malloc size => List.replicate size none
  | .calloc nmemb size => List.replicate (nmemb * size) (some 0)
  | .realloc none size => List.replicate size none
  | .realloc (some _) size => old.take size ++ List.replicate (size - old.length) none
  | .strdup str => (textAt str).map some ++ [some 0]
  | .strndup str n => ((textAt str).take n).map some ++ [some 0]
  | .memdup data size => (data.take size).map some

/-- Whether the request can be met at all: `size_t` holds its size. -/
def Fits : Req → Prop
  | .calloc nmemb size => nmemb * size < 2 ^ 64
  | _ => True

/-- A program keeps to the rules: it copies what it may read, and frees and resizes only blocks it got (`xs`) and has not given back. -/
def Proper (s : Proc) (xs : List (Option Nat)) : Op → Prop
  | .request r => Readable r ∧ ∀ a, resizes r = some a → some a ∈ xs ∧ ∃ b, s.heap.blocks[a]? = some (some b)
  | .free a => some a ∈ xs ∧ ∃ b, s.heap.blocks[a]? = some (some b)
  | _ => True

/-- `ops` are calls, all of them proper, that returned `xs` and led to `s`. -/
inductive Reach (grant : Nat → Bool) : List Op → List (Option Nat) → Proc → Prop
  | init : Reach grant [] [] init
  | step (ops : List Op) (xs : List (Option Nat)) (s s' : Proc) (op : Op) (x : Option Nat) :
      Reach grant ops xs s → Proper s xs op → Alloc.step grant s op = some (.returns s' x) → Reach grant (ops ++ [op]) (xs ++ [x]) s'

/-- The functions registered and not yet run, the last one first. -/
def waiting (ops : List Op) : List Fn :=
  ops.foldl (fun w op => match op with
    | .register f => f :: w
    | .call => []
    | _ => w) []

/-- A cleanup function that leaves these modules alone, except that it may ask for memory, with arguments as they should be. -/
def Quiet (f : Fn) : Prop := ∀ act ∈ f.acts, ∃ r, act = .request r ∧ Readable r ∧ Fits r ∧ resizes r = none

/-- What is written to stderr for a refused request: the function called and the message. -/
def message : Req → List String
  | .malloc _ => ["xmalloc", "CRITICAL: Unable to allocate memory\n"]
  | .calloc _ _ => ["xcalloc", "CRITICAL: Unable to allocate memory\n"]
  | .realloc _ _ => ["xrealloc", "CRITICAL: Unable to allocate memory\n"]
  | .strdup _ => ["xstrdup", "CRITICAL: Unable to allocate memory\n"]
  | .strndup _ _ => ["xstrndup", "CRITICAL: Unable to allocate memory\n"]
  | .memdup _ _ => ["xmemdup", "CRITICAL: Unable to allocate memory\n"]

/-- The functions waiting neither call the module nor are refused memory, if they ask for some, from the `k`-th allocation call on. -/
def CleanupWorks (grant : Nat → Bool) (ops : List Op) (k : Nat) : Prop := ∀ f ∈ waiting ops, f.acts = [] ∨ (Quiet f ∧ ∀ i, k ≤ i → grant i = true)

end Alloc
