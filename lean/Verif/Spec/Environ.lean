/-! # Specification: the environment as a list of texts `name=value` -/
namespace EnvironSpec

abbrev Bytes := List UInt8

/-- A name a variable can have. -/
def ValidName (n : Bytes) : Prop := n ≠ [] ∧ (61 : UInt8) ∉ n ∧ (0 : UInt8) ∉ n

/-- `v` is the value of the first text of the form `n=...`. -/
inductive Value : List Bytes → Bytes → Bytes → Prop
  | here {n v : Bytes} {es : List Bytes} : Value ((n ++ [61] ++ v) :: es) n v
  | there {e n v : Bytes} {es : List Bytes} : (∀ w, e ≠ n ++ [61] ++ w) → Value es n v → Value (e :: es) n v

/-- No variable of that name. -/
def Unset (es : List Bytes) (n : Bytes) : Prop := ∀ e ∈ es, ∀ w, e ≠ n ++ [61] ++ w

/-- The variables other than `n` are the same in both environments. -/
def SameOthers (es es' : List Bytes) (n : Bytes) : Prop := ∀ n' v, ValidName n' → n' ≠ n → (Value es' n' v ↔ Value es n' v)

/-- A text that names the variable `n`: `n=...`, or `n` alone (left by some systems for a variable without value). -/
def Names (e n : Bytes) : Prop := e = n ∨ ∃ w, e = n ++ [61] ++ w

end EnvironSpec
