import Verif.Spec.SafeOpen
/-! # Specification of deleting what is below a directory

In terms of filesystem states only. -/
namespace SafeOpenSpec
open SafeOpen

def dotName (c : Name) : Prop := c = [46] ∨ c = [46, 46]
instance (c : Name) : Decidable (dotName c) := by unfold dotName; infer_instance

/-- The directories of the tree with the root `i`, down to `depth` levels; links are not followed. -/
def treeDirs (fs : FS) : (depth : Nat) → (i : Nat) → List Nat
  | 0, _ => []
  | k + 1, i => match fs.node i with
    | some ⟨.dir ent, _, _⟩ => i :: (ent.filter fun e => ¬ dotName e.1).flatMap fun e => treeDirs fs k e.2
    | _ => []

/-- What `i` stands for is there, has at most `depth` levels of directories, and all paths below it are shorter than 4096 bytes if its own has `len`; names are what names can be. -/
def Fits (fs : FS) : (depth : Nat) → (len : Nat) → (i : Nat) → Prop
  | 0, _, i => ∃ n, fs.node i = some n ∧ ∀ ent, n.kind ≠ .dir ent
  | k + 1, len, i => ∃ n, fs.node i = some n ∧ ∀ ent, n.kind = .dir ent →
      ((ent.filter fun e => ¬ dotName e.1).map (·.1)).Nodup ∧
      ∀ e ∈ ent, ¬ dotName e.1 → e.1 ≠ [] ∧ (47 : UInt8) ∉ e.1 ∧ len + 1 + e.1.length < 4096 ∧ Fits fs k (len + 1 + e.1.length) e.2

/-- The filesystem with the directories in `l` emptied (but for `.` and `..`), and nothing else changed. -/
def emptied (fs : FS) (l : List Nat) : FS :=
  { fs with node := fun i => if i ∈ l then
      match fs.node i with
      | some ⟨.dir ent, u, g⟩ => some ⟨.dir (ent.filter fun e => dotName e.1), u, g⟩
      | n => n
    else fs.node i }

end SafeOpenSpec
