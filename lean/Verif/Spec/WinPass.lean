/-!
# What passing an open socket to another process on Windows is meant to do

No model names here.  The two processes talk over a byte stream; each call of the system may fail or move fewer bytes than asked.
-/
namespace WinPassSpec

/-- Who may end up owning what a call took from the system: every socket opened (with the bytes it was opened from) and every buffer
allocated is accounted for. -/
structure Ledger where
  opened : List Nat
  closed : List Nat
  allocated : Nat
  freed : Nat
deriving DecidableEq, Repr

/-- The receiver keeps `kept` (the sockets returned) and `texts` buffers handed to the caller; nothing else stays open or allocated, and
nothing is closed or freed that was not opened or allocated. -/
def Settled (l : Ledger) (kept : List Nat) (texts : Nat) : Prop :=
  l.opened.Perm (l.closed ++ kept) ∧ l.allocated = l.freed + texts

/-- Decimal digits of a number, most significant first. -/
def IsDecimal (ds : List UInt8) (n : Nat) : Prop :=
  ds ≠ [] ∧ (∀ d ∈ ds, 48 ≤ d.toNat ∧ d.toNat ≤ 57) ∧ (ds.length > 1 → ds.head? ≠ some 48) ∧
    ds.foldl (fun a d => 10 * a + (d.toNat - 48)) 0 = n

/-- Four bytes, least significant first. -/
def le32 (bs : List UInt8) : Nat :=
  match bs with
  | [a, b, c, d] => a.toNat + 256 * b.toNat + 65536 * c.toNat + 16777216 * d.toNat
  | _ => 0

end WinPassSpec
