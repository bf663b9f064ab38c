import Verif.Model.SafeOpen
/-! # Specification of a trusted walk along a path

Uses only the kernel part of the model (filesystem states, directory lookup, components of a path). -/
namespace SafeOpenSpec
open SafeOpen

def IsLink (fs : FS) (i : Nat) (t : List UInt8) : Prop := ∃ u g, fs.node i = some ⟨.link t, u, g⟩

/-- `Resolves fs d cs n j`: the components `cs` from directory `d` lead to `j`, following `n` symbolic links. -/
inductive Resolves (fs : FS) : Nat → List Name → Nat → Nat → Prop where
  | here (d : Nat) : Resolves fs d [] 0 d
  | name (d : Nat) (c : Name) (cs : List Name) (i n j : Nat) : entry fs d c = .ok i → (∀ t, ¬ IsLink fs i t) → Resolves fs i cs n j → Resolves fs d (c :: cs) n j
  | link (d : Nat) (c : Name) (cs : List Name) (i n j : Nat) (t : List UInt8) : entry fs d c = .ok i → IsLink fs i t →
      Resolves fs (if t.head? = some 47 then fs.root else d) (comps t ++ cs) n j → Resolves fs d (c :: cs) (n + 1) j

/-- The documented rule (file_lib.c:521-526): what the name denotes (a link, or the object itself) is owned by root, by the running user `me`, or has
the owner and group of what was opened. -/
def Trusted (me : Nat) (found opened : Inode) : Prop :=
  found.uid = 0 ∨ found.uid = me ∨ (found.uid = opened.uid ∧ found.gid = opened.gid)

/-- A checked walk in a filesystem that changes: `log` are the states just before and after each of the successive system calls. Each component was looked at
(`t1`), then opened (`t2`), then the opened object was looked at (`t3`), and the rule holds for what was seen; or the last component did not exist
and was created, as a new file, at a moment when it did not exist (`t2`). A trailing `.` (slash) may be opened together with the last name. -/
inductive Walked (log : List (FS × FS)) (me uid gid : Nat) : (t : Nat) → (dir : Nat) → List Name → (final : Nat) → Prop where
  | done (t d : Nat) : Walked log me uid gid t d [] d
  | step (t d : Nat) (c : Name) (slash cs : List Name) (t1 t2 t3 b i m j : Nat) (s1 s2 s3 : FS × FS) (nb na : Inode) :
      t ≤ t1 → t1 < t2 → t2 < t3 → log[t1]? = some s1 → log[t2]? = some s2 → log[t3]? = some s3 →
      entry s1.1 d c = .ok b → s1.1.node b = some nb →
      (slash = [] ∨ slash = [[46]] ∧ cs = []) →
      Resolves s2.1 d (c :: slash) m i → s3.1.node i = some na → Trusted me nb na →
      Walked log me uid gid (t3 + 1) i cs j → Walked log me uid gid t d (c :: slash ++ cs) j
  | create (t d : Nat) (c : Name) (t2 : Nat) (pre post : FS) (dn : Inode) :
      t ≤ t2 → log[t2]? = some (pre, post) → entry pre d c = .error ENOENT → pre.node d = some dn → pre.node pre.fresh = none →
      post = created pre d dn c uid gid → Walked log me uid gid t d [c] pre.fresh

/-- The rule holds along the whole path, in a filesystem that does not change; each component leads through at most 40 links. -/
inductive TrustedPath (fs : FS) (me : Nat) : Nat → List Name → Nat → Prop where
  | done (d : Nat) : TrustedPath fs me d [] d
  | step (d : Nat) (c : Name) (cs : List Name) (b i m j : Nat) (nb na : Inode) :
      entry fs d c = .ok b → fs.node b = some nb → Resolves fs d [c] m i → m ≤ 40 → fs.node i = some na → Trusted me nb na →
      TrustedPath fs me i cs j → TrustedPath fs me d (c :: cs) j

/-- Nobody else changes the filesystem meanwhile, and no call fails for reasons outside the model. -/
def Quiet (E : Env) : Prop := (∀ n fs, E.adv n fs = fs) ∧ ∀ n, E.inj n = none

def NotLink (fs : FS) (i : Nat) : Prop := ∀ t, ¬ IsLink fs i t

/-- The object can be opened with the access wanted. -/
def Openable (n : Inode) (wr : Bool) : Prop :=
  match n.kind with
  | .reg _ => True
  | .dir _ => wr = false
  | .link _ => False

/-- `next` and all larger numbers are unused descriptors. -/
def Good (w : World) : Prop := ∀ f, w.next ≤ f → w.fds f = none

/-- The descriptor table without `fd`. -/
def without (t : Nat → Option Nat) (fd : Nat) : Nat → Option Nat := fun f => if f = fd then none else t f
/-- The descriptor table with `fd ↦ i`. -/
def plus (t : Nat → Option Nat) (fd i : Nat) : Nat → Option Nat := fun f => if f = fd then some i else t f

/-- None of the calls changed the filesystem. -/
def Only (l : List (FS × FS)) : Prop := ∀ p ∈ l, p.2 = p.1


end SafeOpenSpec
