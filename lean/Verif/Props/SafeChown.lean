import Verif.Lemmas.SafeChown
import Verif.Props.SafeOpen
/-! # C106 (safe_chown and safe_lchown), C107 (safe_chmod) -/
namespace SafeOpen
open SafeOpenSpec

/-! ## What `dirname` and `basename` split a path into -/

theorem reverse_dropWhile_append (p : UInt8 → Bool) (l : List UInt8) : l = (l.reverse.dropWhile p).reverse ++ (l.reverse.takeWhile p).reverse := by
  rw [← List.reverse_append, List.takeWhile_append_dropWhile, List.reverse_reverse]

theorem strip_slashes_append (p : List UInt8) : ∃ s, p = stripSlashes p ++ s ∧ ∀ c ∈ s, c = 47 := by
  refine ⟨(p.reverse.takeWhile (· == 47)).reverse, reverse_dropWhile_append _ p, ?_⟩
  intro c hc
  rw [List.mem_reverse] at hc
  have hall := List.all_takeWhile (p := (fun x : UInt8 => x == 47)) (l := p.reverse)
  have := List.all_eq_true.mp hall c hc
  simpa using this

theorem strip_slashes_last (p : List UInt8) : (stripSlashes p).getLast? ≠ some 47 := by
  intro h
  simp only [stripSlashes, List.getLast?_reverse] at h
  cases hd : p.reverse.dropWhile (· == 47) with
  | nil => rw [hd] at h; simp at h
  | cons a t => rw [hd] at h; simp at h; exact dropWhile_head _ _ _ hd h

theorem strip_name_append (p : List UInt8) : p = stripName p ++ lastName p := reverse_dropWhile_append _ p

theorem last_name_no_slash (p : List UInt8) : (47 : UInt8) ∉ lastName p := by
  simp only [lastName, List.mem_reverse]
  exact takeWhile_no47 _

theorem strip_name_last (p : List UInt8) (h : stripName p ≠ []) : ∃ q, stripName p = q ++ [47] := by
  rcases tail_slash p.reverse with h1 | ⟨t, h1⟩
  · exact absurd (by simp only [stripName]; rw [h1]; rfl) h
  · exact ⟨t.reverse, by simp only [stripName]; rw [h1]; simp⟩

theorem pieces_append_slashes (s : List UInt8) (hs : ∀ c ∈ s, c = 47) : ∀ p cur, pieces cur (p ++ s) = pieces cur p := by
  intro p
  induction p with
  | nil =>
    intro cur
    cases s with
    | nil => rfl
    | cons c s' =>
      have hc := hs c (by simp)
      subst hc
      have key : ∀ (s' : List UInt8), (∀ c ∈ s', c = 47) → pieces [] s' = [] := by
        intro s'
        induction s' with
        | nil => intro _; rfl
        | cons d s'' ih =>
          intro hh
          have := hh d (by simp)
          subst this
          simp only [pieces, if_true]; exact ih (fun c hc => hh c (by simp [hc]))
      have := key s' (fun c hc => hs c (by simp [hc]))
      simp only [List.nil_append, pieces, if_true, this]
  | cons c p ih =>
    intro cur
    simp only [List.cons_append, pieces, ih]

theorem pieces_dir_name (name : List UInt8) (hn : (47 : UInt8) ∉ name) (hne : name ≠ []) : ∀ dir cur, pieces cur (dir ++ 47 :: name) = pieces cur dir ++ [name] := by
  intro dir
  induction dir with
  | nil =>
    intro cur
    have h := pieces_name name hn [] []
    simp only [List.append_nil, List.nil_append] at h
    have h2 : pieces name [] = [name] := by simp [pieces, hne]
    by_cases hc : cur = []
    · subst hc; simp only [List.nil_append, pieces, if_true, h, hne, if_false]
    · simp only [List.nil_append, pieces, if_true, hc, hne, if_false, h, List.singleton_append]
  | cons c dir ih =>
    intro cur
    simp only [List.cons_append, pieces, ih]
    split
    · split <;> simp
    · rfl

/-- The directory part and the leaf together are the names of the path, in order; the directory part is absolute if the path is. -/
theorem C106_dirname_basename (path : List UInt8) :
    (stripSlashes path ≠ [] → (47 : UInt8) ∉ basename path ∧ basename path ≠ [] ∧
      (((47 : UInt8) ∈ stripSlashes path ∧ pieces [] path = pieces [] (dirname path) ++ [basename path] ∧ ((dirname path).head? = some 47 ↔ path.head? = some 47)) ∨
       ((47 : UInt8) ∉ stripSlashes path ∧ pieces [] path = [basename path] ∧ dirname path = [46]))) ∧
    (dirname path = [47] ∨ (dirname path ≠ [] ∧ (dirname path).getLast? ≠ some 47)) := by
  constructor
  · intro hne
    obtain ⟨s, hs1, hs2⟩ := strip_slashes_append path
    have hpc : pieces [] path = pieces [] (stripSlashes path) := by
      have h := pieces_append_slashes s hs2 (stripSlashes path) []
      rw [← hs1] at h; exact h
    have hhead : path.head? = (stripSlashes path).head? := by
      cases hh : stripSlashes path with
      | nil => exact absurd hh hne
      | cons a t => rw [hh] at hs1; rw [hs1]; rfl
    have hlast := strip_slashes_last path
    simp only [basename, dirname, hne, if_false]
    rw [hpc, hhead]
    generalize stripSlashes path = q at *
    have hsplit := strip_name_append q
    have hno := last_name_no_slash q
    have hlne : lastName q ≠ [] := by
      intro h
      rw [h, List.append_nil] at hsplit
      obtain ⟨q', hq'⟩ := strip_name_last q (by rw [← hsplit]; exact hne)
      rw [← hsplit] at hq'
      rw [hq'] at hlast
      simp at hlast
    refine ⟨hno, hlne, ?_⟩
    by_cases hd : stripName q = []
    · right
      rw [if_pos hd]
      rw [hd, List.nil_append] at hsplit
      refine ⟨by rw [hsplit]; exact hno, ?_, rfl⟩
      have h := pieces_name (lastName q) hno [] []
      simp only [List.append_nil, List.nil_append] at h
      rw [show pieces [] q = pieces [] (lastName q) by rw [← hsplit], h]
      simp [pieces, hlne]
    · left
      rw [if_neg hd]
      obtain ⟨r, hr⟩ := strip_name_last q hd
      have hq : q = r ++ 47 :: lastName q := by rw [hr] at hsplit; simpa using hsplit
      refine ⟨by rw [hq]; simp, ?_, ?_⟩
      · have e1 : pieces [] q = pieces [] r ++ [lastName q] := by
          have := pieces_dir_name (lastName q) hno hlne r []
          rw [← hq] at this; exact this
        rw [e1]
        congr 1
        obtain ⟨s2, hs3, hs4⟩ := strip_slashes_append (stripName q)
        have e2 : pieces [] (stripName q) = pieces [] (stripSlashes (stripName q)) := by
          have h := pieces_append_slashes s2 hs4 (stripSlashes (stripName q)) []
          rw [← hs3] at h; exact h
        have e3 : pieces [] (stripName q) = pieces [] r := by rw [hr]; exact pieces_append_slashes [47] (by simp) r []
        rw [← e3, e2]
        split
        · rename_i h; rw [h]; decide
        · rfl
      · obtain ⟨s2, hs3, hs4⟩ := strip_slashes_append (stripName q)
        have hh : q.head? = (stripName q).head? := by
          rw [hsplit]
          cases hx : stripName q with
          | nil => exact absurd hx hd
          | cons a t =>
            have : stripName (a :: t ++ lastName q) = a :: t := by rw [← hx, ← hsplit]
            rw [this]; rfl
        rw [hh]
        split
        · rename_i h
          rw [h, List.nil_append] at hs3
          cases s2 with
          | nil => exact absurd hs3 hd
          | cons a t => rw [hs3]; simp [hs4 a (by simp)]
        · rename_i h
          cases hx : stripSlashes (stripName q) with
          | nil => exact absurd hx h
          | cons a t => rw [hx] at hs3; rw [hs3]; simp
  · simp only [dirname]
    split
    · split
      · right; decide
      · left; rfl
    · split
      · right; decide
      · split
        · left; rfl
        · right; exact ⟨‹_›, strip_slashes_last _⟩

example : dirname ([47, 97, 47, 98, 47, 47, 99, 47] : List UInt8) = ([47, 97, 47, 98] : List UInt8) ∧ basename ([47, 97, 47, 98, 47, 47, 99, 47] : List UInt8) = ([99] : List UInt8) := by decide
example : dirname ([47, 47, 120] : List UInt8) = ([47] : List UInt8) ∧ basename ([120] : List UInt8) = ([120] : List UInt8) ∧ dirname ([120] : List UInt8) = ([46] : List UInt8) := by decide

/-! ## C106: whatever others do to the filesystem -/

theorem chown_run (E : Env) (w : World) (hg : Good w) (path : List UInt8) (owner group : Option Nat) (nofollow : Bool) :
    ∃ r w' l, safeChownImpl E w path owner group nofollow = some (r, w') ∧ w'.fds = w.fds ∧ w'.log = w.log ++ l ∧
      match r with
      | .error _ => Only l
      | .ok _ => ∃ l' pre d i n, l = l' ++ [(pre, chowned pre i owner group)] ∧ Only l' ∧ entryLeaf pre d (basename path) = .ok i ∧ pre.node i = some n ∧
          Parent w'.log E.euid (pUid E) E.euid E.egid E.cwd nofollow w.log.length path none d := by
  obtain ⟨r, w1, e1, g1, l, hl, ol, hr⟩ := trueParent_spec E nofollow SYMLINK_MAX_DEPTH w path none hg
  cases r with
  | error e => exact ⟨.error e, w1, l, by simp [safeChownImpl, e1], hr, hl, ol⟩
  | ok fd =>
    obtain ⟨hn, d, hf, hp⟩ := hr
    have hfd : w1.fds fd = some d := by rw [hf]; simp [plus]
    obtain ⟨r2, pre, post, e2, hr2⟩ := fchownat_spec E w1 fd d (basename path) owner group hfd
    have hcl : close (after w1 pre post) fd = some { after w1 pre post with fds := without w1.fds fd } := close_spec _ _ d hfd
    refine ⟨r2, { after w1 pre post with fds := without w1.fds fd }, l ++ [(pre, post)], by simp [safeChownImpl, e1, e2, hcl], ?_, by simp [after, hl], ?_⟩
    · show without w1.fds fd = w.fds
      rw [hf, without_plus hn]
    · cases r2 with
      | error e => rw [hr2]; exact only_append ol (only_one pre)
      | ok _ =>
        obtain ⟨i, n, h1, h2, rfl⟩ := hr2
        exact ⟨l, pre, d, i, n, rfl, ol, h1, h2, parent_mono hp _⟩

/-- Whatever others do between the system calls: safe_lchown changes at most one thing, the owner and group of the object that the last name of the path denotes (a link itself, not what it leads to) in a
directory that was reached along the directory part of the path with every component checked; on failure nothing; and it leaves the descriptors as they were. Missing: effective
user ids over 1, as for safe_open (`C50_uid_wrong_negated`). -/
theorem C106_lchown_checked_partial (E : Env) (he : E.euid ≤ 1) (w : World) (hg : Good w) (path : List UInt8) (owner group : Option Nat) :
    ∃ r w' l, safeLchown E w path owner group = some (r, w') ∧ w'.fds = w.fds ∧ w'.log = w.log ++ l ∧
      match r with
      | .error _ => Only l
      | .ok _ => ∃ l' pre d i n s0, l = l' ++ [(pre, chowned pre i owner group)] ∧ Only l' ∧ entryLeaf pre d (basename path) = .ok i ∧ pre.node i = some n ∧
          w'.log[w.log.length]? = some s0 ∧
          Walked w'.log E.euid E.euid E.egid (w.log.length + 1) (if (dirname path).head? = some 47 then s0.1.root else E.cwd) (comps (dirname path)) d := by
  obtain ⟨r, w', l, e, h1, h2, h3⟩ := chown_run E w hg path owner group true
  refine ⟨r, w', l, e, h1, h2, ?_⟩
  cases r with
  | error e => exact h3
  | ok _ =>
    obtain ⟨l', pre, d, i, n, a1, a2, a3, a4, a5⟩ := h3
    rw [pUid_eq E he] at a5
    cases a5 with
    | here _ _ _ _ t1 b s0 s1 nb b1 b2 => exact ⟨l', pre, d, i, n, s0, a1, a2, a3, a4, b1, b2⟩
    | link _ _ _ _ _ _ _ _ _ _ _ _ _ _ _ _ _ _ _ _ _ _ hno => cases hno

/-- Whatever others do: safe_chown changes at most the owner and group of one object, on failure nothing, and leaves the descriptors as they were. The object is what the *path's own* last name
denotes in the directory found by following links from the path, each read in a directory reached with every component checked, each root's or the user's or of the owner and group of what it
leads to. Missing: if a link was followed, that is not the object the link leads to (`C106_link_leaf_negated`); and effective user ids over 1. -/
theorem C106_chown_checked_partial (E : Env) (he : E.euid ≤ 1) (w : World) (hg : Good w) (path : List UInt8) (owner group : Option Nat) :
    ∃ r w' l, safeChown E w path owner group = some (r, w') ∧ w'.fds = w.fds ∧ w'.log = w.log ++ l ∧
      match r with
      | .error _ => Only l
      | .ok _ => ∃ l' pre d i n, l = l' ++ [(pre, chowned pre i owner group)] ∧ Only l' ∧ entryLeaf pre d (basename path) = .ok i ∧ pre.node i = some n ∧
          Parent w'.log E.euid E.euid E.euid E.egid E.cwd false w.log.length path none d := by
  have h := chown_run E w hg path owner group false
  rw [pUid_eq E he] at h
  exact h

/-! ## C106: when nobody interferes -/

theorem safeOpen_root_quiet (E : Env) (hQ : Quiet E) (w : World) (hg : Good w) : ∃ fd w', safeOpen E w [47] rdonly = some (.ok fd, w') ∧ w'.fds = plus w.fds fd w.fs.root ∧ w'.fs = w.fs := by
  refine ⟨w.next, (addFd (after w w.fs w.fs) w.fs.root).2, ?_, rfl, rfl⟩
  have h : openFirst E w true = some (.ok w.next, (addFd (after w w.fs w.fs) w.fs.root).2) := by
    have h := call_quiet E hQ w (fun fs => some ((.ok (if true = true then fs.root else E.cwd) : Except Nat Nat), fs)) (.ok w.fs.root) w.fs (by simp)
    unfold openFirst
    rw [h]
    rfl
  simp [safeOpen, rdonly, h, loop, finish]

theorem safeOpen_dir_quiet (E : Env) (hQ : Quiet E) (he : E.euid ≤ 1) (w : World) (hg : Good w) (path : List UInt8) (hp : path = [47] ∨ (path ≠ [] ∧ path.getLast? ≠ some 47))
    (hroot : NotLink w.fs w.fs.root) (d : Nat) (hT : TrustedPath w.fs E.euid (start E w.fs path) (comps path) d) (n : Inode) (hn : w.fs.node d = some n) (ho : Openable n false) :
    ∃ fd w', safeOpen E w path rdonly = some (.ok fd, w') ∧ w'.fds = plus w.fds fd d ∧ w'.fs = w.fs ∧ w.fds fd = none ∧ Good w' := by
  have hx : ∃ fd w', safeOpen E w path rdonly = some (.ok fd, w') ∧ w'.fds = plus w.fds fd d ∧ w'.fs = w.fs := by
    rcases hp with rfl | ⟨hp, hl⟩
    · obtain ⟨fd, w', h1, h2, h3⟩ := safeOpen_root_quiet E hQ w hg
      have hd : d = w.fs.root := by
        have hc : comps [47] = [] := by decide
        rw [hc] at hT
        cases hT; simp [start]
      exact ⟨fd, w', h1, by rw [hd]; exact h2, h3⟩
    · obtain ⟨fd, w', k, h1, h2, _, h3⟩ := C50_trusted_path_opens E hQ he w hg path rdonly (by simp [rdonly]) hp hl hroot d n hT hn ho (by simp [rdonly])
      exact ⟨fd, w', h1, h2, by simpa [rdonly] using h3⟩
  obtain ⟨fd, w', h1, h2, h3⟩ := hx
  obtain ⟨r, w2, e, g, l, _, _, hr⟩ := safeOpen_rd E path w hg
  rw [h1] at e
  cases e
  exact ⟨fd, w', h1, h2, h3, hr.1, g⟩

theorem entry_openable {fs : FS} {d : Nat} {c : Name} {i : Nat} (h : entry fs d c = .ok i) : ∃ n, fs.node d = some n ∧ Openable n false := by
  unfold entry at h
  split at h
  · rename_i ent u g hn; exact ⟨_, hn, by simp [Openable]⟩
  · cases h
  · cases h

theorem trueParent_quiet (E : Env) (hQ : Quiet E) (he : E.euid ≤ 1) (w : World) (hg : Good w) (path : List UInt8) (hroot : NotLink w.fs w.fs.root) (nofollow : Bool) (cd : Nat) (d : Nat)
    (hT : TrustedPath w.fs E.euid (start E w.fs (dirname path)) (comps (dirname path)) d) (hb : basename path ≠ [47]) (i : Nat) (n : Inode) (hi : entry w.fs d (basename path) = .ok i)
    (hn : w.fs.node i = some n) (hk : nofollow = true ∨ ∀ tg, n.kind ≠ .link tg) :
    ∃ fd w', trueParent E nofollow cd w path none = some (.ok fd, w') ∧ w'.fds = plus w.fds fd d ∧ w'.fs = w.fs ∧ w.fds fd = none ∧ Good w' := by
  obtain ⟨dn, hdn, hdo⟩ := entry_openable hi
  obtain ⟨fd, w1, e1, hf, hfs, hnone, g1⟩ := safeOpen_dir_quiet E hQ he w hg (dirname path) (C106_dirname_basename path).2 hroot d hT dn hdn hdo
  have hfd : w1.fds fd = some d := by rw [hf]; simp [plus]
  have e2 : lstatat E w1 fd (basename path) = some (.ok (i, lstatOf n), after w1 w1.fs w1.fs) := by
    simp only [lstatat, hfd, Option.bind_eq_bind, Option.bind_some]
    refine call_quiet E hQ w1 _ _ _ ?_
    simp only [entryLeaf, hb, if_false, hfs, hi, hn]
  refine ⟨fd, after w1 w1.fs w1.fs, ?_, hf, hfs, hnone, g1⟩
  rw [trueParent.eq_def]
  have hlk : ((lstatOf n).isLink && !nofollow) = false := by
    rcases hk with rfl | hk
    · simp
    · have : (lstatOf n).isLink = false := by
        simp only [lstatOf]
      simp [this]
  simp only [e1, e2, linkRefused, hlk, Option.bind_eq_bind, Option.bind_some, Bool.false_eq_true, if_false]

/-- When nobody interferes: if the ownership rule holds along the directory part of the path, safe_lchown succeeds on whatever the last name denotes, and safe_chown on what is not a link; owner
and group of that object are changed, and nothing else in the filesystem. -/
theorem C106_owner_set (E : Env) (hQ : Quiet E) (he : E.euid ≤ 1) (w : World) (hg : Good w) (path : List UInt8) (hroot : NotLink w.fs w.fs.root) (owner group : Option Nat) (d : Nat)
    (hT : TrustedPath w.fs E.euid (start E w.fs (dirname path)) (comps (dirname path)) d) (hb : basename path ≠ [47]) (i : Nat) (n : Inode) (hi : entry w.fs d (basename path) = .ok i)
    (hn : w.fs.node i = some n) :
    (∃ w', safeLchown E w path owner group = some (.ok (), w') ∧ w'.fds = w.fds ∧ w'.fs = setNode w.fs i { n with uid := owner.getD n.uid, gid := group.getD n.gid }) ∧
    ((∀ tg, n.kind ≠ .link tg) →
      ∃ w', safeChown E w path owner group = some (.ok (), w') ∧ w'.fds = w.fds ∧ w'.fs = setNode w.fs i { n with uid := owner.getD n.uid, gid := group.getD n.gid }) := by
  have key : ∀ nofollow, (nofollow = true ∨ ∀ tg, n.kind ≠ .link tg) →
      ∃ w', safeChownImpl E w path owner group nofollow = some (.ok (), w') ∧ w'.fds = w.fds ∧ w'.fs = setNode w.fs i { n with uid := owner.getD n.uid, gid := group.getD n.gid } := by
    intro nofollow hk
    obtain ⟨fd, w1, e1, hf, hfs, hnone, g1⟩ := trueParent_quiet E hQ he w hg path hroot nofollow SYMLINK_MAX_DEPTH d hT hb i n hi hn hk
    have hfd : w1.fds fd = some d := by rw [hf]; simp [plus]
    have e2 : fchownat E w1 fd (basename path) owner group = some (.ok (), after w1 w1.fs (chowned w1.fs i owner group)) := by
      simp only [fchownat, hfd, Option.bind_eq_bind, Option.bind_some]
      refine call_quiet E hQ w1 _ _ _ ?_
      simp only [entryLeaf, hb, if_false, hfs, hi, hn]
    have hcl : close (after w1 w1.fs (chowned w1.fs i owner group)) fd = some { after w1 w1.fs (chowned w1.fs i owner group) with fds := without w1.fds fd } := close_spec _ _ d hfd
    refine ⟨_, by simp [safeChownImpl, e1, e2, hcl]; rfl, ?_, ?_⟩
    · show without w1.fds fd = w.fds
      rw [hf, without_plus hnone]
    · show chowned w1.fs i owner group = _
      simp only [chowned, hfs, hn]
  exact ⟨key true (.inl rfl), fun hk => key false (.inr hk)⟩

/-- When nobody interferes: a last name that is missing is reported and nothing changes. -/
theorem C106_missing_reported (E : Env) (hQ : Quiet E) (he : E.euid ≤ 1) (w : World) (hg : Good w) (path : List UInt8) (hroot : NotLink w.fs w.fs.root) (owner group : Option Nat) (nofollow : Bool) (d : Nat)
    (hT : TrustedPath w.fs E.euid (start E w.fs (dirname path)) (comps (dirname path)) d) (hb : basename path ≠ [47]) (dn : Inode) (hdn : w.fs.node d = some dn) (hdo : Openable dn false)
    (hi : entry w.fs d (basename path) = .error ENOENT) :
    ∃ w', safeChownImpl E w path owner group nofollow = some (.error ENOENT, w') ∧ w'.fds = w.fds ∧ w'.fs = w.fs := by
  obtain ⟨fd, w1, e1, hf, hfs, hnone, g1⟩ := safeOpen_dir_quiet E hQ he w hg (dirname path) (C106_dirname_basename path).2 hroot d hT dn hdn hdo
  have hfd : w1.fds fd = some d := by rw [hf]; simp [plus]
  have e2 : lstatat E w1 fd (basename path) = some (.error ENOENT, after w1 w1.fs w1.fs) := by
    simp only [lstatat, hfd, Option.bind_eq_bind, Option.bind_some]
    refine call_quiet E hQ w1 _ _ _ ?_
    simp only [entryLeaf, hb, if_false, hfs, hi]
  have hcl : close (after w1 w1.fs w1.fs) fd = some { after w1 w1.fs w1.fs with fds := without w1.fds fd } := close_spec _ _ d hfd
  refine ⟨{ after w1 w1.fs w1.fs with fds := without w1.fds fd }, ?_, ?_, hfs⟩
  · rw [safeChownImpl, trueParent.eq_def]
    simp [e1, e2, hcl]
  · show without w1.fds fd = w.fds
    rw [hf, without_plus hnone]

/-- When nobody interferes: a link in the last place of somebody who is neither root nor the running user, leading by an absolute path to an object of another owner or group, is refused by
safe_chown: nothing changes. -/
theorem C106_untrusted_link_refused (E : Env) (hQ : Quiet E) (he : E.euid ≤ 1) (w : World) (hg : Good w) (path : List UInt8) (hroot : NotLink w.fs w.fs.root) (owner group : Option Nat) (d : Nat)
    (hT : TrustedPath w.fs E.euid (start E w.fs (dirname path)) (comps (dirname path)) d) (hb : basename path ≠ [47]) (i : Nat) (tg : List UInt8) (u g : Nat)
    (hi : entry w.fs d (basename path) = .ok i) (hn : w.fs.node i = some ⟨.link tg, u, g⟩) (habs : tg.head? = some 47)
    (d2 : Nat) (hT2 : TrustedPath w.fs E.euid w.fs.root (comps (dirname tg)) d2) (hb2 : basename tg ≠ [47]) (i2 : Nat) (n2 : Inode) (hi2 : entry w.fs d2 (basename tg) = .ok i2)
    (hn2 : w.fs.node i2 = some n2) (hd2 : (dirname tg).head? = some 47) (hu : u ≠ 0 ∧ u ≠ E.euid ∧ (u ≠ n2.uid ∨ g ≠ n2.gid)) :
    ∃ w', safeChown E w path owner group = some (.error ENOLINK, w') ∧ w'.fds = w.fds ∧ w'.fs = w.fs := by
  obtain ⟨dn, hdn, hdo⟩ := entry_openable hi
  obtain ⟨fd, w1, e1, hf, hfs, hnone, g1⟩ := safeOpen_dir_quiet E hQ he w hg (dirname path) (C106_dirname_basename path).2 hroot d hT dn hdn hdo
  have hfd : w1.fds fd = some d := by rw [hf]; simp [plus]
  have e2 : lstatat E w1 fd (basename path) = some (.ok (i, lstatOf ⟨.link tg, u, g⟩), after w1 w1.fs w1.fs) := by
    simp only [lstatat, hfd, Option.bind_eq_bind, Option.bind_some]
    refine call_quiet E hQ w1 _ _ _ ?_
    simp only [entryLeaf, hb, if_false, hfs, hi, hn]
  have hw2 : ∀ fs, (after w1 fs fs).fds fd = some d := fun _ => hfd
  have e3 : readlinkat E (after w1 w1.fs w1.fs) fd (basename path) (tg.length + 1) = some (.ok tg, after (after w1 w1.fs w1.fs) w1.fs w1.fs) := by
    simp only [readlinkat, hw2, Option.bind_eq_bind, Option.bind_some]
    refine call_quiet E hQ (after w1 w1.fs w1.fs) _ _ _ ?_
    simp only [after, entryLeaf, hb, if_false, hfs, hi, hn]
    rw [List.take_of_length_le (by omega)]
  let w3 := after (after w1 w1.fs w1.fs) w1.fs w1.fs
  have hw3fs : w3.fs = w.fs := hfs
  have g3 : Good w3 := g1
  obtain ⟨dn2, hdn2, hdo2⟩ := entry_openable hi2
  obtain ⟨fd2, w4, e4, hf4, hfs4, hnone4, g4⟩ := safeOpen_dir_quiet E hQ he w3 g3 (dirname tg) (C106_dirname_basename tg).2 (by rw [hw3fs]; exact hroot) d2
    (by simp only [start, hd2, if_true, hw3fs]; exact hT2) dn2 (by rw [hw3fs]; exact hdn2) hdo2
  have hfd4 : w4.fds fd2 = some d2 := by rw [hf4]; simp [plus]
  have hfs4' : w4.fs = w.fs := hfs4.trans hw3fs
  have e5 : lstatat E w4 fd2 (basename tg) = some (.ok (i2, lstatOf n2), after w4 w4.fs w4.fs) := by
    simp only [lstatat, hfd4, Option.bind_eq_bind, Option.bind_some]
    refine call_quiet E hQ w4 _ _ _ ?_
    simp only [entryLeaf, hb2, if_false, hfs4', hi2, hn2]
  have hcl5 : close (after w4 w4.fs w4.fs) fd2 = some { after w4 w4.fs w4.fs with fds := without w4.fds fd2 } := close_spec _ _ d2 hfd4
  have hwo5 : without w4.fds fd2 = w1.fds := by
    have : w3.fds = w1.fds := rfl
    rw [hf4, without_plus hnone4, this]
  have hlr : linkRefused E (some (u, g)) (lstatOf n2) = true := by
    cases h : linkRefused E (some (u, g)) (lstatOf n2) with
    | true => rfl
    | false =>
      rw [linkRefused_iff] at h
      simp only [LinkTrusted] at h
      rcases h with h | h | ⟨h, h'⟩
      · exact absurd h hu.1
      · exact absurd h hu.2.1
      · rcases hu.2.2 with h2 | h2
        · exact absurd h h2
        · exact absurd h' h2
  have e6 : trueParent E false 31 w3 tg (some (u, g)) = some (.error ENOLINK, { after w4 w4.fs w4.fs with fds := without w4.fds fd2 }) := by
    rw [trueParent.eq_def]
    simp only [e4, Option.bind_eq_bind, Option.bind_some, e5, hlr, if_true, hcl5]
  have hcl6 : close { after w4 w4.fs w4.fs with fds := without w4.fds fd2 } fd = some { after w4 w4.fs w4.fs with fds := without (without w4.fds fd2) fd } :=
    close_spec _ _ d (by show without w4.fds fd2 fd = some d; rw [hwo5]; exact hfd)
  refine ⟨{ after w4 w4.fs w4.fs with fds := without (without w4.fds fd2) fd }, ?_, ?_, hfs4'⟩
  · have e7 : trueParent E false 32 w path none = some (.error ENOLINK, { after w4 w4.fs w4.fs with fds := without (without w4.fds fd2) fd }) := by
      rw [trueParent.eq_def]
      simp only [e1, Option.bind_eq_bind, Option.bind_some, e2, linkRefused, Bool.false_eq_true, if_false, lstatOf, statOf, Bool.not_false, Bool.and_self, if_true, e3,
        Nat.lt_irrefl, gt_iff_lt, resolvedLink, habs]
      have e6' : trueParent E false 31 (after (after w1 w1.fs w1.fs) w1.fs w1.fs) tg (some (u, g)) = some (.error ENOLINK, { after w4 w4.fs w4.fs with fds := without w4.fds fd2 }) := e6
      rw [e6']
      simp only [Option.bind_some, hcl6]
    simp only [safeChown, safeChownImpl, SYMLINK_MAX_DEPTH, e7, Option.bind_eq_bind, Option.bind_some]
  · show without (without w4.fds fd2) fd = w.fds
    rw [hwo5, hf, without_plus hnone]

/-! ## C107: whatever others do -/

theorem fchmod_spec (E : Env) (w : World) (fd i : Nat) (h : w.fds fd = some i) :
    ∃ r pre, fchmod E w fd = some (r, after w pre pre) ∧ ∀ c, r = .ok c → c.inode = i ∧ c.time = w.log.length := by
  unfold fchmod
  rw [h]
  obtain ⟨r, pre, post, e, hr⟩ := call_spec E w (fun fs => some ((match fs.node i with
    | some _ => .ok ⟨i, w.log.length⟩
    | none => .error ESTALE : Except Nat Chmod), fs)) (by simp)
  rcases hr with ⟨e', rfl, rfl⟩ | hr
  · exact ⟨_, _, e, by simp⟩
  · simp only [Option.some.injEq, Prod.mk.injEq] at hr
    obtain ⟨hr, rfl⟩ := hr
    refine ⟨r, pre, e, ?_⟩
    rintro c rfl
    split at hr
    · cases hr; exact ⟨rfl, rfl⟩
    · cases hr

theorem fchmodat_spec (E : Env) (euid : Nat) (w : World) (fd d : Nat) (leaf : Name) (h : w.fds fd = some d) :
    ∃ r pre, fchmodat E euid w fd leaf = some (r, after w pre pre) ∧
      ∀ c, r = .ok c → c.time = w.log.length ∧ ∃ m n, Resolves pre (if leaf = [47] then pre.root else d) (comps leaf) m c.inode ∧ pre.node c.inode = some n ∧ (euid = 0 ∨ euid = n.uid) := by
  unfold fchmodat
  rw [h]
  obtain ⟨r, pre, post, e, hr⟩ := call_spec E w (fun fs => some ((match resolve fs maxLinks (if leaf = [47] then fs.root else d) (comps leaf) with
    | .error e => .error e
    | .ok i => match fs.node i with
      | some n => if euid = 0 ∨ euid = n.uid then .ok ⟨i, w.log.length⟩ else .error EPERM
      | none => .error ESTALE : Except Nat Chmod), fs)) (by simp)
  rcases hr with ⟨e', rfl, rfl⟩ | hr
  · exact ⟨_, _, e, by simp⟩
  · simp only [Option.some.injEq, Prod.mk.injEq] at hr
    obtain ⟨hr, rfl⟩ := hr
    refine ⟨r, pre, e, ?_⟩
    rintro c rfl
    split at hr
    · cases hr
    · rename_i j hj
      obtain ⟨m, _, hm⟩ := (resolve_ok _ _ _ _ _).1 hj
      split at hr
      · rename_i n hn
        split at hr
        · rename_i hperm; cases hr; exact ⟨rfl, m, n, hm, hn, hperm⟩
        · cases hr
      · cases hr

theorem seteuid_spec (E : Env) (w : World) : ∃ r pre, seteuid E w = some (r, after w pre pre) := by
  unfold seteuid
  obtain ⟨r, pre, post, e, hr⟩ := call_spec E w (fun fs => some ((.ok () : Except Nat Unit), fs)) (by simp)
  rcases hr with ⟨e', rfl, rfl⟩ | hr
  · exact ⟨_, _, e⟩
  · cases hr; exact ⟨_, _, e⟩

/-- Whatever others do between the system calls: safe_chmod changes no owner, name or content, leaves the descriptors as they were, and sets the mode of at most one object. Either that was reached along the whole path with
every component checked (as in safe_open). Or a FIFO or socket was seen under the path's last name, and then the object is root's FIFO's or belongs to the owner of the FIFO: putting a
link to somebody else's file in the FIFO's place does not help its owner. Missing: effective user ids over 1. -/
theorem C107_chmod_checked_partial (E : Env) (he : E.euid ≤ 1) (special : Nat → Bool) (w : World) (hg : Good w) (path : List UInt8) :
    ∃ r w' l, safeChmod E special w path = some (r, w') ∧ w'.fds = w.fds ∧ w'.log = w.log ++ l ∧ Only l ∧
      ∀ c, r = .ok c → w.log.length ≤ c.time ∧
        ((∃ t s0, w.log.length ≤ t ∧ t < c.time ∧ w'.log[t]? = some s0 ∧
            Walked w'.log E.euid E.euid E.egid (t + 1) (if path.head? = some 47 then s0.1.root else E.cwd) (comps path) c.inode) ∨
         (∃ t d i nb s1 s2 n m, w.log.length ≤ t ∧ t < c.time ∧ w'.log[t]? = some s1 ∧ entryLeaf s1.1 d (basename path) = .ok i ∧ s1.1.node i = some nb ∧ special i = true ∧
            w'.log[c.time]? = some s2 ∧ Resolves s2.1 (if basename path = [47] then s2.1.root else d) (comps (basename path)) m c.inode ∧ s2.1.node c.inode = some n ∧
            (nb.uid = 0 ∨ nb.uid = n.uid))) := by
  obtain ⟨r, w1, e1, g1, l, hl, ol, hr⟩ := trueParent_spec E false SYMLINK_MAX_DEPTH w path none hg
  cases r with
  | error e => exact ⟨.error e, w1, l, by simp [safeChmod, e1], hr, hl, ol, by simp⟩
  | ok fd =>
    obtain ⟨hn, d, hf, _⟩ := hr
    have hfd : w1.fds fd = some d := by rw [hf]; simp [plus]
    have hwo : without w1.fds fd = w.fds := by rw [hf, without_plus hn]
    have hle1 : w.log.length ≤ w1.log.length := by rw [hl]; simp
    obtain ⟨r2, pre, e2, hr2⟩ := lstatat_spec E w1 fd d (basename path) hfd
    have hcl2 : close (after w1 pre pre) fd = some { after w1 pre pre with fds := without w1.fds fd } := close_spec _ _ d hfd
    have hlog2 : (after w1 pre pre).log = w.log ++ (l ++ [(pre, pre)]) := by simp [after, hl]
    have hon2 : Only (l ++ [(pre, pre)]) := only_append ol (only_one pre)
    cases r2 with
    | error e => exact ⟨.error e, { after w1 pre pre with fds := without w1.fds fd }, l ++ [(pre, pre)], by simp [safeChmod, e1, e2, hcl2], hwo, hlog2, hon2, by simp⟩
    | ok p =>
      obtain ⟨i, st⟩ := p
      obtain ⟨nb, hb1, hb2, rfl⟩ := hr2 i st rfl
      cases hsp : special i with
      | true =>
        obtain ⟨r3, pre3, e3⟩ := seteuid_spec E (after w1 pre pre)
        have hcl3 : close (after (after w1 pre pre) pre3 pre3) fd = some { after (after w1 pre pre) pre3 pre3 with fds := without w1.fds fd } := close_spec _ _ d hfd
        have hlog3 : (after (after w1 pre pre) pre3 pre3).log = w.log ++ (l ++ [(pre, pre)] ++ [(pre3, pre3)]) := by simp [after, hl]
        have hon3 : Only (l ++ [(pre, pre)] ++ [(pre3, pre3)]) := only_append hon2 (only_one pre3)
        cases r3 with
        | error e => exact ⟨.error e, { after (after w1 pre pre) pre3 pre3 with fds := without w1.fds fd }, l ++ [(pre, pre)] ++ [(pre3, pre3)], by simp [safeChmod, e1, e2, hsp, e3, hcl3], hwo, hlog3, hon3, by simp⟩
        | ok _ =>
          obtain ⟨r4, pre4, e4, hr4⟩ := fchmodat_spec E (lstatOf nb).uid (after (after w1 pre pre) pre3 pre3) fd d (basename path) hfd
          have hcl4 : close (after (after (after w1 pre pre) pre3 pre3) pre4 pre4) fd = some { after (after (after w1 pre pre) pre3 pre3) pre4 pre4 with fds := without w1.fds fd } := close_spec _ _ d hfd
          have hlog4 : (after (after (after w1 pre pre) pre3 pre3) pre4 pre4).log = w.log ++ (l ++ [(pre, pre)] ++ [(pre3, pre3)] ++ [(pre4, pre4)]) := by simp [after, hl]
          refine ⟨r4, { after (after (after w1 pre pre) pre3 pre3) pre4 pre4 with fds := without w1.fds fd }, l ++ [(pre, pre)] ++ [(pre3, pre3)] ++ [(pre4, pre4)], by simp [safeChmod, e1, e2, hsp, e3, e4, hcl4], hwo, hlog4, only_append hon3 (only_one pre4), ?_⟩
          intro c hc
          obtain ⟨ht, m, n, q1, q2, q3⟩ := hr4 c hc
          have hlen : (after (after w1 pre pre) pre3 pre3).log.length = w1.log.length + 2 := by simp [after]
          rw [hlen] at ht
          refine ⟨by omega, .inr ⟨w1.log.length, d, i, nb, (pre, pre), (pre4, pre4), n, m, hle1, by omega, ?_, hb1, hb2, hsp, ?_, q1, q2, q3⟩⟩
          · simp [after]
          · rw [ht]; simp [after]
      | false =>
        have g2 : Good (after w1 pre pre) := g1
        obtain ⟨r3, w3, e3, g3, l3, hl3, ol3, hr3⟩ := safeOpen_rd E path (after w1 pre pre) g2
        have hlog3 : w3.log = w.log ++ (l ++ [(pre, pre)] ++ l3) := by rw [hl3, hlog2]; simp
        have hon3 : Only (l ++ [(pre, pre)] ++ l3) := only_append hon2 ol3
        cases r3 with
        | error e =>
          have hfd3 : w3.fds fd = some d := by rw [hr3]; exact hfd
          have hcl3 : close w3 fd = some { w3 with fds := without w3.fds fd } := close_spec _ _ d hfd3
          refine ⟨.error e, { w3 with fds := without w3.fds fd }, l ++ [(pre, pre)] ++ l3, by simp [safeChmod, e1, e2, hsp, e3, hcl3], ?_, hlog3, hon3, by simp⟩
          show without w3.fds fd = w.fds
          rw [hr3]; exact hwo
        | ok fd3 =>
          obtain ⟨hn3, j, s0, hf3, hs0, hW⟩ := hr3
          have hfd3 : w3.fds fd3 = some j := by rw [hf3]; simp [plus]
          obtain ⟨r4, pre4, e4, hr4⟩ := fchmod_spec E w3 fd3 j hfd3
          have hcl4 : close (after w3 pre4 pre4) fd3 = some { after w3 pre4 pre4 with fds := without w3.fds fd3 } := close_spec _ _ j hfd3
          have hwo3 : without w3.fds fd3 = w1.fds := by rw [hf3, without_plus hn3]; rfl
          have hcl5 : close { after w3 pre4 pre4 with fds := without w3.fds fd3 } fd = some { after w3 pre4 pre4 with fds := without (without w3.fds fd3) fd } :=
            close_spec _ _ d (by show without w3.fds fd3 fd = some d; rw [hwo3]; exact hfd)
          refine ⟨r4, { after w3 pre4 pre4 with fds := without (without w3.fds fd3) fd }, l ++ [(pre, pre)] ++ l3 ++ [(pre4, pre4)], by simp [safeChmod, e1, e2, hsp, e3, e4, hcl4, hcl5], ?_, ?_, only_append hon3 (only_one pre4), ?_⟩
          · show without (without w3.fds fd3) fd = w.fds
            rw [hwo3]; exact hwo
          · simp [after, hlog3]
          · intro c hc
            obtain ⟨c1, c2⟩ := hr4 c hc
            have hlt : (after w1 pre pre).log.length < w3.log.length := (List.getElem?_eq_some_iff.mp hs0).1
            have hlen : (after w1 pre pre).log.length = w1.log.length + 1 := by simp [after]
            refine ⟨by omega, .inl ⟨(after w1 pre pre).log.length, s0, by omega, by omega, ?_, ?_⟩⟩
            · show (w3.log ++ [(pre4, pre4)])[_]? = some s0
              rw [List.getElem?_append_left hlt]; exact hs0
            · rw [pUid_eq E he] at hW
              rw [c1]
              exact walked_mono hW [(pre4, pre4)]

/-- When nobody interferes: along a path for which the ownership rule holds and whose last name is neither a link nor a FIFO or socket, safe_chmod sets the mode of the object the path denotes. -/
theorem C107_mode_set (E : Env) (hQ : Quiet E) (he : E.euid ≤ 1) (special : Nat → Bool) (w : World) (hg : Good w) (path : List UInt8) (hp : path ≠ []) (hl : path.getLast? ≠ some 47)
    (hroot : NotLink w.fs w.fs.root) (d : Nat) (hT : TrustedPath w.fs E.euid (start E w.fs (dirname path)) (comps (dirname path)) d) (hb : basename path ≠ [47]) (i : Nat) (n : Inode)
    (hi : entry w.fs d (basename path) = .ok i) (hn : w.fs.node i = some n) (hk : ∀ tg, n.kind ≠ .link tg) (hs : special i = false)
    (hT2 : TrustedPath w.fs E.euid (start E w.fs path) (comps path) i) :
    ∃ c w', safeChmod E special w path = some (.ok c, w') ∧ c.inode = i ∧ w'.fds = w.fds ∧ w'.fs = w.fs := by
  obtain ⟨fd, w1, e1, hf, hfs, hnone, g1⟩ := trueParent_quiet E hQ he w hg path hroot false SYMLINK_MAX_DEPTH d hT hb i n hi hn (.inr hk)
  have hfd : w1.fds fd = some d := by rw [hf]; simp [plus]
  have e2 : lstatat E w1 fd (basename path) = some (.ok (i, lstatOf n), after w1 w1.fs w1.fs) := by
    simp only [lstatat, hfd, Option.bind_eq_bind, Option.bind_some]
    refine call_quiet E hQ w1 _ _ _ ?_
    simp only [entryLeaf, hb, if_false, hfs, hi, hn]
  have hop : Openable n false := by
    unfold Openable
    split
    · trivial
    · rfl
    · rename_i t ht; exact absurd ht (hk t)
  have hst : start E (after w1 w1.fs w1.fs).fs path = start E w.fs path := by simp [after, hfs]
  obtain ⟨fd3, w3, e3, hf3, hfs3, hnone3, g3⟩ := safeOpen_dir_quiet E hQ he (after w1 w1.fs w1.fs) g1 path (.inr ⟨hp, hl⟩) (by simp only [after, hfs]; exact hroot) i
    (by rw [hst]; simp only [after, hfs]; exact hT2) n (by simp only [after, hfs]; exact hn) hop
  have hfs3' : w3.fs = w.fs := hfs3.trans hfs
  have hfd3 : w3.fds fd3 = some i := by rw [hf3]; simp [plus]
  have e4 : fchmod E w3 fd3 = some (.ok ⟨i, w3.log.length⟩, after w3 w3.fs w3.fs) := by
    simp only [fchmod, hfd3, Option.bind_eq_bind, Option.bind_some]
    refine call_quiet E hQ w3 _ _ _ ?_
    simp only [hfs3', hn]
  have hcl4 : close (after w3 w3.fs w3.fs) fd3 = some { after w3 w3.fs w3.fs with fds := without w3.fds fd3 } := close_spec _ _ i hfd3
  have hwo3 : without w3.fds fd3 = w1.fds := by rw [hf3, without_plus hnone3]; rfl
  have hcl5 : close { after w3 w3.fs w3.fs with fds := without w3.fds fd3 } fd = some { after w3 w3.fs w3.fs with fds := without (without w3.fds fd3) fd } :=
    close_spec _ _ d (by show without w3.fds fd3 fd = some d; rw [hwo3]; exact hfd)
  refine ⟨⟨i, w3.log.length⟩, { after w3 w3.fs w3.fs with fds := without (without w3.fds fd3) fd }, by simp [safeChmod, e1, e2, hs, e3, e4, hcl4, hcl5], rfl, ?_, hfs3'⟩
  show without (without w3.fds fd3) fd = w.fds
  rw [hwo3, hf, without_plus hnone]

/-! ## Concrete filesystems -/

/-- `/t/f` (root's) is given to user 7. -/
example : (∃ w', safeChown (alone 0) (world demo) [47, 116, 47, 102] (some 7) none = some (.ok (), w') ∧ w'.fds = (world demo).fds ∧ w'.fs = setNode demo 2 ⟨.reg [1, 2], 7, 0⟩) :=
  (C106_owner_set (alone 0) (alone_quiet 0) (by decide) (world demo) (world_good demo) [47, 116, 47, 102] demo_root (some 7) none 1 (demo_t 0) (by decide) 2 ⟨.reg [1, 2], 0, 0⟩ rfl rfl).2
    (by simp)

/-- safe_lchown gives the link `/t/l` itself away. -/
example : (∃ w', safeLchown (alone 0) (world demo) [47, 116, 47, 108] (some 7) (some 8) = some (.ok (), w') ∧ w'.fds = (world demo).fds ∧ w'.fs = setNode demo 3 ⟨.link [47, 115], 7, 8⟩) :=
  (C106_owner_set (alone 0) (alone_quiet 0) (by decide) (world demo) (world_good demo) [47, 116, 47, 108] demo_root (some 7) (some 8) 1 (demo_t 0) (by decide) 3 ⟨.link [47, 115], 5, 5⟩ rfl rfl).1

/-- User 5's link `/t/l` to root's `/s` is refused. -/
example : ∃ w', safeChown (alone 0) (world demo) [47, 116, 47, 108] (some 7) none = some (.error ENOLINK, w') ∧ w'.fds = (world demo).fds ∧ w'.fs = demo :=
  C106_untrusted_link_refused (alone 0) (alone_quiet 0) (by decide) (world demo) (world_good demo) [47, 116, 47, 108] demo_root (some 7) none 1 (demo_t 0) (by decide) 3 [47, 115] 5 5 rfl rfl rfl
    0 (.done 0) (by decide) 4 ⟨.reg [9], 0, 0⟩ rfl rfl rfl (by decide)

/-- A missing name. -/
example : ∃ w', safeChownImpl (alone 0) (world demo) [47, 116, 47, 110] (some 7) none false = some (.error ENOENT, w') ∧ w'.fds = (world demo).fds ∧ w'.fs = demo :=
  C106_missing_reported (alone 0) (alone_quiet 0) (by decide) (world demo) (world_good demo) [47, 116, 47, 110] demo_root (some 7) none false 1 (demo_t 0) (by decide)
    ⟨.dir [([102], 2), ([108], 3), ([109], 5)], 5, 5⟩ rfl (by simp [Openable]) rfl

/-- The mode of `/t/f` is set. -/
example : ∃ c w', safeChmod (alone 0) (fun _ => false) (world demo) [47, 116, 47, 102] = some (.ok c, w') ∧ c.inode = 2 ∧ w'.fds = (world demo).fds ∧ w'.fs = demo :=
  C107_mode_set (alone 0) (alone_quiet 0) (by decide) (fun _ => false) (world demo) (world_good demo) [47, 116, 47, 102] (by decide) (by decide) demo_root 1 (demo_t 0) (by decide) 2
    ⟨.reg [1, 2], 0, 0⟩ rfl rfl (by simp) rfl (demo_f 0)

/-- `/d/l` is root's link to `/e/p`; `/e` also has a file `l`; everything is root's. `/d/k` is a link to `/e/p` too, but there is no `/e/k`. -/
def demo4 : FS where
  node := fun i => match i with
    | 0 => some ⟨.dir [([100], 1), ([101], 2)], 0, 0⟩
    | 1 => some ⟨.dir [([108], 3), ([107], 6)], 0, 0⟩
    | 2 => some ⟨.dir [([112], 4), ([108], 5)], 0, 0⟩
    | 3 => some ⟨.link [47, 101, 47, 112], 0, 0⟩
    | 4 => some ⟨.reg [1], 0, 0⟩
    | 5 => some ⟨.reg [2], 0, 0⟩
    | 6 => some ⟨.link [47, 101, 47, 112], 0, 0⟩
    | _ => none
  root := 0
  fresh := 7

/-- Whether the call succeeded, or its error; and the owners of the objects named. -/
def owners (r : Option (Except Nat Unit × World)) (is : List Nat) : Option (Option Nat × List (Option Nat)) :=
  r.map fun p => (match p.1 with | .ok _ => none | .error e => some e, is.map fun i => (p.2.fs.node i).map (·.uid))

/-- safe_chown follows a link to find the directory of what it leads to, and then looks there for the name *of the link*. Root's own link `/d/l` to `/e/p`: giving `/d/l` to user 7 gives
`/e/l` away, a file the path does not lead to, and not `/e/p`. `/d/k`: the call fails although the link leads to a file. -/
theorem C106_link_leaf_negated :
    (∃ k, Resolves demo4 0 [[100], [108]] k 4) ∧ (∃ k, Resolves demo4 0 [[100], [107]] k 4) ∧
    owners (safeChown (alone 0) (world demo4) [47, 100, 47, 108] (some 7) none) [3, 4, 5] = some (none, [some 0, some 0, some 7]) ∧
    owners (safeChown (alone 0) (world demo4) [47, 100, 47, 107] (some 7) none) [3, 4, 5, 6] = some (some ENOENT, [some 0, some 0, some 0, some 0]) := by
  have nl : ∀ i, i ≠ 3 → i ≠ 6 → ∀ t, ¬ IsLink demo4 i t := by
    rintro i h3 h6 t ⟨u, g, h⟩
    simp only [demo4] at h
    split at h <;> simp_all
  have tail : Resolves demo4 0 [[101], [112]] 0 4 :=
    .name 0 [101] _ 2 0 4 rfl (nl 2 (by decide) (by decide)) (.name 2 [112] _ 4 0 4 rfl (nl 4 (by decide) (by decide)) (.here 4))
  refine ⟨⟨1, .name 0 [100] _ 1 1 4 rfl (nl 1 (by decide) (by decide)) (.link 1 [108] [] 3 0 4 [47, 101, 47, 112] rfl ⟨0, 0, rfl⟩ tail)⟩,
    ⟨1, .name 0 [100] _ 1 1 4 rfl (nl 1 (by decide) (by decide)) (.link 1 [107] [] 6 0 4 [47, 101, 47, 112] rfl ⟨0, 0, rfl⟩ tail)⟩, by decide +kernel, by decide +kernel⟩

/-- The error of a safe_chmod call, or the object whose mode it set. -/
def chmodded (r : Option (Except Nat Chmod × World)) : Option (Nat ⊕ Nat) :=
  r.map fun p => match p.1 with
    | .ok c => .inr c.inode
    | .error e => .inl e

/-- The same in safe_chmod: through root's link `/d/k` the mode of `/e/p` can not be set (`ENOENT`); and through `/d/l` the test whether the file is a FIFO, on which it must not be opened, is made on `/e/l`: if `/e/l`
is a FIFO, it is the mode of `/e/l` that is set. -/
theorem C107_link_leaf_negated :
    (∃ k, Resolves demo4 0 [[100], [107]] k 4) ∧ chmodded (safeChmod (alone 0) (fun _ => false) (world demo4) [47, 100, 47, 107]) = some (.inl ENOENT) ∧
    (∃ k, Resolves demo4 0 [[100], [108]] k 4) ∧ chmodded (safeChmod (alone 0) (fun i => i == 5) (world demo4) [47, 100, 47, 108]) = some (.inr 5) :=
  ⟨C106_link_leaf_negated.2.1, by decide +kernel, C106_link_leaf_negated.1, by decide +kernel⟩

end SafeOpen
