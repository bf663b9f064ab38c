import Verif.Model.CryptoCompat
/-! # Specification: setting fields of keys and signatures

Only the names of the fields and the shape of the world are taken from the model. -/
namespace CryptoSpec
open CryptoCompat (Slot W)

/-- A call: the object, and the values handed over. -/
inductive Call where
  | rsaKey (n e d : Option Nat)
  | rsaFactors (p q : Option Nat)
  | rsaCrt (dmp1 dmq1 iqmp : Option Nat)
  | dsaPqg (p q g : Option Nat)
  | key (pub priv : Option Nat)
  | sig (r s : Option Nat)
  | dhPqg (p q g : Option Nat)

/-- The values handed over, by field. -/
def Call.given : Call → List (Slot × Option Nat)
  | .rsaKey n e d => [(.n, n), (.e, e), (.d, d)]
  | .rsaFactors p q => [(.p, p), (.q, q)]
  | .rsaCrt a b c => [(.dmp1, a), (.dmq1, b), (.iqmp, c)]
  | .dsaPqg p q g => [(.p, p), (.q, q), (.g, g)]
  | .key a b => [(.pub_key, a), (.priv_key, b)]
  | .sig r s => [(.r, r), (.s, s)]
  | .dhPqg p q g => [(.p, p), (.q, q), (.g, g)]

/-- The fields that must have a value afterwards. -/
def Call.needed : Call → List Slot
  | .rsaKey .. => [.n, .e]
  | .rsaFactors .. => [.p, .q]
  | .rsaCrt .. => [.dmp1, .dmq1, .iqmp]
  | .dsaPqg .. => [.p, .q, .g]
  | .key .. => [.pub_key]
  | .sig .. => []
  | .dhPqg .. => [.p, .g]

/-- The numbers handed over. -/
def Call.numbers (c : Call) : List Nat := c.given.filterMap (·.2)

/-- The value handed over for a field. -/
def Call.value (c : Call) (x : Slot) : Option Nat := ((c.given.find? (·.1 = x)).map (·.2)).join

/-- The call is accepted: every needed field has a value already or is given one; a signature needs both. -/
def Call.accepted (c : Call) (now : Slot → Option Nat) : Prop :=
  match c with
  | .sig r s => r ≠ none ∧ s ≠ none
  | c => ∀ x ∈ c.needed, now x ≠ none ∨ c.value x ≠ none

/-- The fields afterwards: what was given, otherwise what was there. -/
def Call.fields (c : Call) (now : Slot → Option Nat) (x : Slot) : Option Nat := (c.value x).or (now x)

/-- Numbers replaced, which must be freed. -/
def Call.replaced (c : Call) (now : Slot → Option Nat) : List Nat :=
  c.given.filterMap fun (x, v) => if v = none then none else now x

end CryptoSpec
