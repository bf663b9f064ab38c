/-! # Specification of mkdtemp: names made from a template -/
namespace MkdtempSpec

/-- `name` is the template with its six trailing X replaced by decimal digits. -/
def FromTemplate (template name : List UInt8) : Prop :=
  ∃ pre d, template = pre ++ List.replicate 6 88 ∧ name = pre ++ d ∧ d.length = 6 ∧ ∀ c ∈ d, 48 ≤ c ∧ c ≤ 57

end MkdtempSpec
