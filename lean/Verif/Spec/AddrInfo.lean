import Verif.Model.AddrInfo
/-! # Specification: the list getaddrinfo returns -/
namespace AddrInfoSpec
open AddrInfo (Bytes Block)

/-- One entry, as the caller sees it. -/
structure Entry where
  ip : Bytes
  port : Nat
  socktype : Int
  protocol : Int
  canon : Option Bytes
deriving DecidableEq

/-- The canonical name of an entry: no pointer, or a pointer to a string. -/
inductive Canon (b : Nat → Option Block) : Option Nat → Option Bytes → List Nat → Prop
  | none : Canon b .none .none []
  | some {p : Nat} {s : Bytes} : b p = Option.some (.str s) → Canon b (.some p) (.some s) [p]

/-- In memory `b` the pointer leads to the list `es`, which occupies the blocks `ids`. -/
inductive Chain (b : Nat → Option Block) : Option Nat → List Entry → List Nat → Prop
  | nil : Chain b none [] []
  | cons {p s : Nat} {st pr : Int} {c nx : Option Nat} {port : Nat} {ip : Bytes} {t : Option Bytes} {cs : List Nat} {es : List Entry} {ids : List Nat} :
      b p = some (.ai st pr s c nx) → b s = some (.sin port ip) → Canon b c t cs → Chain b nx es ids → Chain b (some p) (⟨ip, port, st, pr, t⟩ :: es) (p :: s :: cs ++ ids)

/-- The result of a call in memory `b0`: `es` is at `p`, in blocks that were free before and all different; the rest of memory is as before. -/
def Returned (b0 b : Nat → Option Block) (p : Option Nat) (es : List Entry) : Prop :=
  ∃ ids, Chain b p es ids ∧ ids.Nodup ∧ (∀ i ∈ ids, b0 i = none) ∧ ∀ i, i ∉ ids → b i = b0 i

/-- The addresses asked for: the wildcard for a missing node with AI_PASSIVE and for an empty one, the loopback address for a missing one, the number itself, or those of the host. -/
inductive Asked (net : AddrInfo.Net) (passive numerichost : Bool) : Option Bytes → List Bytes → Prop
  | wildcard : passive = true → Asked net passive numerichost none [[0, 0, 0, 0]]
  | loopback : passive = false → Asked net passive numerichost none [[127, 0, 0, 1]]
  | empty : Asked net passive numerichost (some []) [[0, 0, 0, 0]]
  | number {n ip : Bytes} : n ≠ [] → numerichost = true → net.pton n = some ip → Asked net passive numerichost (some n) [ip]
  | host {n : Bytes} {e : AddrInfo.Hostent} : n ≠ [] → numerichost = false → net.byName n = .ok e → Asked net passive numerichost (some n) e.addrs

/-- The bytes of a 16-bit number exchanged. -/
def swap (n : Nat) : Nat := n % 256 * 256 + n / 256

end AddrInfoSpec
