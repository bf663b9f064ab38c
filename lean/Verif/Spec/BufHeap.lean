import Verif.Spec.Buffer
import Verif.Model.BufHeap
/-! # Specification: several buffers as plain byte strings, and pointers to their bytes

Only the names of the calls are taken from the model; what a call does to one buffer is Spec/Buffer.lean. -/
namespace BufHeapSpec
open BufHeap (Op)
open BufferSpec (B cstr)

inductive Val
  /-- a buffer; `nul`: its bytes are known to be followed by a NUL -/
  | buf (b : B) (nul : Bool)
  /-- a pointer to the bytes of the buffer made as number `i`, not changed since -/
  | ptr (i : Nat)
  /-- an array of the program with these bytes -/
  | str (t : List UInt8)
  /-- destroyed, or a pointer to bytes that have changed since -/
  | gone

/-- The bytes that may be read through number `k`. -/
def bytes (vs : List Val) (k : Nat) : Option (List UInt8) :=
  match vs[k]? with
  | some (.str t) => some t
  | some (.ptr i) =>
    match vs[i]? with
    | some (.buf b nul) => some (b.content ++ if nul then [0] else [])
    | _ => none
  | _ => none

/-- Buffer `i`. -/
def bufAt (vs : List Val) (i : Nat) : Option (B × Bool) :=
  match vs[i]? with
  | some (.buf b n) => some (b, n)
  | _ => none

/-- Number `k` does not point into buffer `i`. -/
def apart (vs : List Val) (i k : Nat) : Bool :=
  match vs[k]? with
  | some (.ptr j) => i != j
  | _ => true

/-- Buffer `i` has changed: pointers to its bytes must not be used any more. -/
def change (vs : List Val) (i : Nat) (v : Val) : List Val :=
  (vs.map fun u => match u with | .ptr j => if j = i then .gone else u | _ => u).set i v

/-- Sizes up to which the capacity computation is right (C36). -/
def small (n : Nat) : Bool := n + 4 ≤ 2 ^ 32

def isC (b : B) : Bool := b.mode == .cstring

/-- The bytes from `off` on may be given with the length `len`: so many are there, or a NUL ends them (if it does). -/
def given (t : List UInt8) (off len : Nat) (nulEnds : Bool) : Bool := len ≤ (t.drop off).length || (nulEnds && (t.drop off).contains 0)

/-- What a call does, if it is allowed, and what it returns. -/
def step (vs : List Val) : Op → Option (List Val × Nat)
  | .new n => if 0 < n then some (vs ++ [.buf ⟨.cstring, []⟩ true], 0) else none
  | .newFrom k off len => do
    let t ← bytes vs k
    if given t off len true && small t.length then some (vs ++ [.buf ⟨.cstring, cstr ((t.drop off).take len)⟩ true], 0) else none
  | .copy i => do
    let (b, _) ← bufAt vs i
    if small b.content.length then some (vs ++ [.buf ⟨.cstring, cstr b.content⟩ true], 0) else none
  | .destroy i => do
    let _ ← bufAt vs i
    some (change vs i .gone, 0)
  | .data i => do
    let _ ← bufAt vs i
    some (vs ++ [.ptr i], 0)
  | .close i => do
    let (b, n) ← bufAt vs i
    some (change vs i .gone ++ [.str (b.content ++ if n then [0] else [])], 0)
  | .text t => some (vs ++ [.str t], 0)
  | .freeText k =>
    match vs[k]? with
    | some (.str _) => some (vs.set k .gone, 0)
    | _ => none
  | .append i k off len => do
    let (b, n) ← bufAt vs i
    let t ← bytes vs k
    if apart vs i k && given t off len (isC b) && small (b.content.length + t.length) then
      some (change vs i (.buf (BufferSpec.step b (.append (t.drop off) len)) (n && isC b)), 0)
    else none
  | .set i k off len => do
    let (b, _) ← bufAt vs i
    let t ← bytes vs k
    if apart vs i k && given t off len (isC b) && small t.length then
      some (change vs i (.buf (BufferSpec.step b (.set (t.drop off) len)) (isC b)), 0)
    else none
  | .appendString i k off => do
    let (b, _) ← bufAt vs i
    let t ← bytes vs k
    if apart vs i k && (t.drop off).contains 0 && small (b.content.length + t.length) then
      some (change vs i (.buf (BufferSpec.step b (.appendString (cstr (t.drop off)))) true), 0)
    else none
  | .appendChar i c => do
    let (b, n) ← bufAt vs i
    if (!isC b || c != 0) && small b.content.length then some (change vs i (.buf (BufferSpec.step b (.appendChar c)) (n && isC b)), 0) else none
  | .clear i => do
    let (b, _) ← bufAt vs i
    some (change vs i (.buf (BufferSpec.step b .clear) true), 0)
  | .trim i max => do
    let (b, n) ← bufAt vs i
    some (change vs i (.buf (BufferSpec.step b (.trim max)) (n && isC b)), 0)
  | .setMode i c => do
    let (b, n) ← bufAt vs i
    if c then some (change vs i (.buf (BufferSpec.step b .toCString) ((n && isC b) || b.content.contains 0)), 0)
    else some (change vs i (.buf (BufferSpec.step b .toByteArray) n), 0)
  | .appendF i t => do
    let (b, _) ← bufAt vs i
    if !t.contains 0 && small (b.content.length + t.length) then some (change vs i (.buf (BufferSpec.step b (.appendF t)) true), 0) else none
  | .printf i t => do
    let (b, _) ← bufAt vs i
    if !t.contains 0 && small t.length then some (change vs i (.buf (BufferSpec.step b (.printf t)) true), t.length) else none
  | .filter i keep inv => do
    let (b, _) ← bufAt vs i
    if !b.content.contains 0 && small b.content.length then some (vs ++ [.buf ⟨.cstring, b.content.filter fun c => keep c != inv⟩ true], 0) else none
  | .rewrite i keep inv => do
    let (b, _) ← bufAt vs i
    if !b.content.contains 0 && small b.content.length then some (change vs i (.buf (BufferSpec.step b (.rewrite keep inv)) (isC b)), 0) else none
  | .size i => do
    let (b, _) ← bufAt vs i
    some (vs, b.content.length)
  | .read k off => do
    let t ← bytes vs k
    let c ← t[off]?
    some (vs, c.toNat)

/-- A program all of whose calls are allowed. -/
def run : List Val → List Op → Option (List Val × List Nat)
  | vs, [] => some (vs, [])
  | vs, o :: os => do
    let (vs, x) ← step vs o
    let (vs, xs) ← run vs os
    some (vs, x :: xs)

/-- How many allocations a thing is. -/
def Val.size : Val → Nat
  | .buf .. => 2
  | .str .. => 1
  | _ => 0

end BufHeapSpec
