import Verif.Spec.SafeOpen
import Verif.Model.SafeChown
/-! # Specification of changing the owner or the mode of what a path names

Uses the kernel part of the model (filesystem states, lookups, `dirname`, `basename`). -/
namespace SafeOpenSpec
open SafeOpen

/-- The rule for the link that led here: it is root's, the running user's, or has the owner and group of what it leads to. -/
def LinkTrusted (me : Nat) (link : Option (Nat × Nat)) (n : Inode) : Prop :=
  match link with
  | none => True
  | some (u, g) => u = 0 ∨ u = me ∨ (u = n.uid ∧ g = n.gid)

/-- `Parent … t path link d`: beginning with the `t`-th system call, `d` was found to be the directory in which `path` lies. The directory part was walked with every component checked,
and then the last name was looked at; if that was a link that is to be followed, it was read and the directory of what it leads to was found in the same way. -/
inductive Parent (log : List (FS × FS)) (me walker uid gid cwd : Nat) (nofollow : Bool) : (t : Nat) → List UInt8 → Option (Nat × Nat) → (d : Nat) → Prop where
  | here (t : Nat) (path : List UInt8) (link : Option (Nat × Nat)) (d t1 b : Nat) (s0 s1 : FS × FS) (nb : Inode) :
      log[t]? = some s0 → Walked log walker uid gid (t + 1) (if (dirname path).head? = some 47 then s0.1.root else cwd) (comps (dirname path)) d →
      t < t1 → log[t1]? = some s1 → entryLeaf s1.1 d (basename path) = .ok b → s1.1.node b = some nb → LinkTrusted me link nb →
      (nofollow = true ∨ ∀ tg, nb.kind ≠ .link tg) → Parent log me walker uid gid cwd nofollow t path link d
  | link (t : Nat) (path : List UInt8) (link : Option (Nat × Nat)) (d0 d t1 t2 b b2 : Nat) (s0 s1 s2 : FS × FS) (nb n2 : Inode) (tg : List UInt8) :
      log[t]? = some s0 → Walked log walker uid gid (t + 1) (if (dirname path).head? = some 47 then s0.1.root else cwd) (comps (dirname path)) d0 →
      t < t1 → log[t1]? = some s1 → entryLeaf s1.1 d0 (basename path) = .ok b → s1.1.node b = some nb → LinkTrusted me link nb → nofollow = false →
      t1 < t2 → log[t2]? = some s2 → entryLeaf s2.1 d0 (basename path) = .ok b2 → s2.1.node b2 = some n2 → n2.kind = .link tg →
      Parent log me walker uid gid cwd nofollow (t2 + 1) (if tg.head? = some 47 then tg else dirname path ++ 47 :: tg) (some (nb.uid, nb.gid)) d →
      Parent log me walker uid gid cwd nofollow t path link d

end SafeOpenSpec
