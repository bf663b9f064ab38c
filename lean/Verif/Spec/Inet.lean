import Verif.Spec.Ip
/-! # Specification: the text forms of addresses (RFC 4291, section 2.2) -/
namespace InetSpec
open IpSpec NumSpec TrimSpec

/-- Value of a hexadecimal digit in either case. -/
def hexDigit (c : UInt8) : Option Nat :=
  if digit c then some (c.toNat - 48)
  else if 97 ≤ c.toNat ∧ c.toNat ≤ 102 then some (c.toNat - 87)
  else if 65 ≤ c.toNat ∧ c.toNat ≤ 70 then some (c.toNat - 55)
  else none

/-- The number a text of hexadecimal digits denotes. -/
def hexNumber (g : List UInt8) : Option Nat := g.foldlM (fun n c => (hexDigit c).map (16 * n + ·)) 0

/-- A group: hexadecimal digits denoting a number of 16 bits. -/
def Group (g : List UInt8) (v : Nat) : Prop := g ≠ [] ∧ hexNumber g = some v ∧ v ≤ 65535

/-- Groups separated by colons; the last two words may be written as a dotted quad. -/
inductive Words : List UInt8 → List Nat → Prop
  | one (g : List UInt8) (v : Nat) : Group g v → Words g [v]
  | quad (s : List UInt8) (a b c d : Nat) : Quad s a b c d → Words s [256 * a + b, 256 * c + d]
  | cons (g : List UInt8) (v : Nat) (s : List UInt8) (vs : List Nat) : Group g v → Words s vs → Words (g ++ [58] ++ s) (v :: vs)

/-- Groups only. -/
inductive Groups : List UInt8 → List Nat → Prop
  | one (g : List UInt8) (v : Nat) : Group g v → Groups g [v]
  | cons (g : List UInt8) (v : Nat) (s : List UInt8) (vs : List Nat) : Group g v → Groups s vs → Groups (g ++ [58] ++ s) (v :: vs)

/-- `s` is a text form of the address with the eight words `ws`: all of them, or some before and some after a `::` that stands for one or more zero words. -/
inductive Text : List UInt8 → List Nat → Prop
  | full (s : List UInt8) (ws : List Nat) : Words s ws → ws.length = 8 → Text s ws
  | short (l r : List UInt8) (ls rs : List Nat) : (l = [] ∧ ls = []) ∨ Groups l ls → (r = [] ∧ rs = []) ∨ Words r rs → ls.length + rs.length ≤ 7 →
      Text (l ++ [58, 58] ++ r) (ls ++ List.replicate (8 - ls.length - rs.length) 0 ++ rs)

/-- The words of an address of sixteen bytes. -/
def words : List UInt8 → List Nat
  | a :: b :: rest => (256 * a.toNat + b.toNat) :: words rest
  | _ => []

/-! ## The recommended text (RFC 5952) -/

/-- Words `b`, …, `b + l - 1` are zero. -/
def ZeroRun (ws : List Nat) (b l : Nat) : Prop := b + l ≤ ws.length ∧ ∀ i, b ≤ i → i < b + l → ws[i]? = some 0

/-- The run to abbreviate: at least two words, the longest, the first of the longest. -/
def BestRun (ws : List Nat) (b l : Nat) : Prop := 2 ≤ l ∧ ZeroRun ws b l ∧ ∀ b' l', ZeroRun ws b' l' → l' ≤ l ∧ (l' = l → b ≤ b')

/-- Lower-case groups without leading zeros, separated by colons. -/
def join : List Nat → List UInt8
  | [] => []
  | [w] => hexTextSpec w
  | w :: ws => hexTextSpec w ++ [58] ++ join ws

/-- The dotted quad of two words. -/
def quad (w v : Nat) : List UInt8 := decimal (w / 256) ++ [46] ++ decimal (w % 256) ++ [46] ++ decimal (v / 256) ++ [46] ++ decimal (v % 256)

/-- The text after `::`, which stands for the first words: an IPv4-compatible address (six zero words) and an IPv4-mapped one (five and ffff) end in a dotted quad. -/
def embed (b : Nat) (rest : List Nat) : List UInt8 :=
  match b, rest with
  | 0, [w, v] => quad w v
  | 0, [65535, w, v] => hexTextSpec 65535 ++ [58] ++ quad w v
  | _, rest => join rest

/-- The recommended text of the address with words `ws`. -/
inductive Canon (ws : List Nat) : List UInt8 → Prop
  | full : (∀ b l, ¬ BestRun ws b l) → Canon ws (join ws)
  | short (b l : Nat) : BestRun ws b l → Canon ws (join (ws.take b) ++ [58, 58] ++ embed b (ws.drop (b + l)))

/-! ## What inet_pton takes for an address -/

/-- Groups, at most one further colon in the place of a group, and perhaps a dotted quad at the end; nothing has to follow the last colon. `k` is the number of
words before the further colon. -/
inductive Items : List UInt8 → List Nat → (k : Option Nat) → Prop
  | nil : Items [] [] none
  | one (g : List UInt8) (v : Nat) : Group g v → Items g [v] none
  | quad (s : List UInt8) (a b c d : Nat) : Quad s a b c d → Items s [256 * a + b, 256 * c + d] none
  | cons (g : List UInt8) (v : Nat) (s : List UInt8) (vs : List Nat) (k : Option Nat) : Group g v → Items s vs k → Items (g ++ 58 :: s) (v :: vs) (k.map (· + 1))
  | colon (s : List UInt8) (vs : List Nat) : Items s vs none → Items (58 :: s) vs (some 0)

/-- A colon at the beginning must be one of two; the rest is left. -/
def Lead (s t : List UInt8) : Prop := (s = t ∧ ∀ u, t ≠ 58 :: u) ∨ ∃ u, s = 58 :: t ∧ t = 58 :: u

/-- The words of what is taken: eight of them; or fewer and a `::` for those that are missing; or eight and a `::`, and then those after it are lost. -/
inductive Accepted : List UInt8 → List Nat → Prop
  | full (s t : List UInt8) (ws : List Nat) : Lead s t → Items t ws none → ws.length = 8 → Accepted s ws
  | short (s t : List UInt8) (ws : List Nat) (k : Nat) : Lead s t → Items t ws (some k) → ws.length ≤ 7 →
      Accepted s (ws.take k ++ List.replicate (8 - ws.length) 0 ++ ws.drop k)
  | lost (s t : List UInt8) (ws : List Nat) (k : Nat) : Lead s t → Items t ws (some k) → ws.length = 8 → Accepted s (ws.take k ++ List.replicate (8 - k) 0)

end InetSpec
