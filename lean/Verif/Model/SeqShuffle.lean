import Verif.Model.Seq
/-! # Model of `SeqShuffle` (libutils/sequence.c) with the C library's random numbers -/
namespace SeqShuffle
open Seqn (Seq swap)

/-- `rand` and `srand` of the C library: any generator with a hidden state. -/
structure Rng (σ : Type) where
  rand : σ → σ × Nat
  srand : Nat → σ

/-- The loop (sequence.c:378-383): `i`, `i-1`, …, 1. -/
def loop {σ P : Type} (g : Rng σ) : σ → List (Option P) → Nat → Option (σ × List (Option P))
  | st, data, 0 => some (st, data)
  | st, data, i + 1 => do
    let (st, r) := g.rand st
    let j := r % (i + 1 + 1)
    let data ← swap data (i + 1) j
    loop g st data i

/-- `SeqShuffle` (sequence.c:366-387): the sequence and the state of the generator afterwards. -/
def shuffle {σ P : Type} (g : Rng σ) (st : σ) (s : Seq P) (seed : Nat) : Option (Seq P × σ) :=
  if s.length = 0 then some (s, st)
  else do
    let (_, randState) := g.rand st
    let st := g.srand seed
    let (_, data) ← loop g st s.data (s.length - 1)
    let st := g.srand randState
    some ({ s with data := data }, st)

end SeqShuffle
