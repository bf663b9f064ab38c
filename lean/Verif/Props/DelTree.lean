import Verif.Lemmas.DelTree
/-! # C108: DeleteDirectoryTree -/
namespace SafeOpen
open SafeOpenSpec

/-- When nobody interferes: let the path lead to a directory `d`, along components for which the ownership rule holds, and still do so once the tree below `d` is gone; let the directories of the tree
be distinct, the tree have no more levels than directories can be open at once, and no path in it have 4096 bytes or more. Then DeleteDirectoryTree succeeds; afterwards `d` and all directories that
were below it are empty and *everything else in the filesystem is as it was*: in particular links in the tree are removed, not followed, and the directory itself remains. No descriptor is left open.
Missing: effective user ids over 1, as for safe_open, and paths that end in a slash. -/
theorem C108_tree_deleted_partial (E : Env) (hQ : Quiet E) (he : E.euid ≤ 1) (w : World) (hg : Good w) (path : List UInt8) (hp : path ≠ []) (hl : path.getLast? ≠ some 47) (hlen : path.length < 4096)
    (hroot : NotLink w.fs w.fs.root) (d : Nat) (dn : Inode) (ent : List (Name × Nat)) (hd : w.fs.node d = some dn) (hk : dn.kind = .dir ent)
    (levels : Nat) (hfit : Fits w.fs levels path.length d) (hnd : (treeDirs w.fs levels d).Nodup) (free : Nat) (hfree : levels ≤ free)
    (hT : TrustedPath (emptied w.fs (treeDirs w.fs levels d)) E.euid (start E w.fs path) (comps path) d)
    (links : Nat) (h40 : links ≤ 40) (hR : Resolves (emptied w.fs (treeDirs w.fs levels d)) (start E w.fs path) (comps path) links d) :
    ∃ w', deleteDirectoryTree E free w path = some (true, w') ∧ w'.fs = emptied w.fs (treeDirs w.fs levels d) ∧ w'.fds = w.fds := by
  obtain ⟨kd, u, g⟩ := dn
  cases hk
  obtain ⟨w', h1, h2, h3, _⟩ := delTree_quiet E hQ he levels w path d links hg hp hl hlen hroot ⟨ent, u, g, hd⟩ hfit hnd hT h40 hR free hfree
  exact ⟨w', h1, h2, h3⟩

/-- When nobody interferes: a directory that is not there counts as deleted, and nothing changes. -/
theorem C108_missing_is_success (E : Env) (hQ : Quiet E) (he : E.euid ≤ 1) (w : World) (hg : Good w) (path : List UInt8) (hp : path ≠ []) (hl : path.getLast? ≠ some 47)
    (hroot : NotLink w.fs w.fs.root) (pre : List Name) (c : Name) (post : List Name) (hc : comps path = pre ++ c :: post)
    (d : Nat) (hT : TrustedPath w.fs E.euid (start E w.fs path) pre d) (hb : entry w.fs d c = .error ENOENT) (free : Nat) :
    ∃ w', deleteDirectoryTree E free w path = some (true, w') ∧ w'.fs = w.fs ∧ w'.fds = w.fds := by
  obtain ⟨w', e, h1, h2⟩ := C50_missing_component_reported E hQ he w hg path rdonly (by simp [rdonly]) hp hl hroot pre c post hc d hT hb (.inr rfl)
  refine ⟨w', ?_, h2, h1⟩
  cases free <;> simp [deleteDirectoryTree, delTree, dirOpen, e]

/-- When nobody interferes: through somebody else's link to what is not that user's, nothing is deleted and the call fails. -/
theorem C108_untrusted_link_refused (E : Env) (hQ : Quiet E) (he : E.euid ≤ 1) (w : World) (hg : Good w) (path : List UInt8) (hp : path ≠ []) (hl : path.getLast? ≠ some 47)
    (hroot : NotLink w.fs w.fs.root) (pre : List Name) (c : Name) (post : List Name) (hc : comps path = pre ++ c :: post)
    (d : Nat) (hT : TrustedPath w.fs E.euid (start E w.fs path) pre d)
    (b : Nat) (nb : Inode) (hb : entry w.fs d c = .ok b) (hnb : w.fs.node b = some nb) (m i : Nat) (hm : m ≤ 40) (hr : Resolves w.fs d [c] m i) (na : Inode)
    (hna : w.fs.node i = some na) (hu : ¬ Trusted E.euid nb na) (ho : post = [] → Openable na false) (free : Nat) :
    ∃ w', deleteDirectoryTree E free w path = some (false, w') ∧ w'.fs = w.fs ∧ w'.fds = w.fds := by
  obtain ⟨w', e, h1, h2⟩ := C50_untrusted_component_refused E hQ he w hg path rdonly (by simp [rdonly]) hp hl hroot pre c post hc d hT b nb hb hnb m i hm hr na hna hu (by simpa [rdonly] using ho)
    (by simp [rdonly])
  refine ⟨w', ?_, h2, h1⟩
  cases free <;> simp [deleteDirectoryTree, delTree, dirOpen, e, ENOLINK, ENOENT]

/-! ## Whatever others do: the call ends, and descriptors are as before -/

theorem good_plus {w w' : World} {i : Nat} (hg : Good w) (h1 : w'.fds = plus w.fds w.next i) (h2 : w'.next = w.next + 1) : Good w' := by
  intro f hf
  rw [h1]
  simp only [plus]
  rw [if_neg (by omega)]
  exact hg f (by omega)

theorem dirOpen_run (E : Env) (free : Nat) (path : List UInt8) (w : World) (hg : Good w) :
    ∃ r w', dirOpen E free w path = some (r, w') ∧ Good w' ∧
      match r with
      | .error _ => w'.fds = w.fds
      | .ok fd => w.fds fd = none ∧ free ≠ 0 ∧ ∃ i, w'.fds = plus w.fds fd i := by
  obtain ⟨r1, w1, e1, g1, _, _, _, hr1⟩ := safeOpen_rd E path w hg
  cases r1 with
  | error e => exact ⟨.error e, w1, by simp [dirOpen, e1], g1, hr1⟩
  | ok sfd =>
    obtain ⟨hn, i, s0, hf, _⟩ := hr1
    have hs : w1.fds sfd = some i := by rw [hf]; simp [plus]
    by_cases hfree : free = 0
    · refine ⟨.error EMFILE, { w1 with fds := without w1.fds sfd }, by simp [dirOpen, e1, hfree, close_spec w1 sfd i hs], good_without g1 _ _ _, ?_⟩
      show without w1.fds sfd = w.fds
      rw [hf, without_plus hn]
    · obtain ⟨r2, pre, post, e2, _⟩ := call_spec E w1 (fun fs => some (kOpendir E path fs, fs)) (by simp)
      cases r2 with
      | error e =>
        have hcl : close (after w1 pre post) sfd = some { after w1 pre post with fds := without w1.fds sfd } := close_spec _ _ i hs
        refine ⟨.error e, { after w1 pre post with fds := without w1.fds sfd }, by simp [dirOpen, e1, hfree, opendir, e2, hcl], good_without g1 _ _ _, ?_⟩
        show without w1.fds sfd = w.fds
        rw [hf, without_plus hn]
      | ok j =>
        let w2 := (addFd (after w1 pre post) j).2
        have e2' : opendir E w1 path = some (.ok w1.next, w2) := by simp only [opendir, e2, Option.bind_eq_bind, Option.bind_some]; rfl
        have hf2 : w2.fds = plus w1.fds w1.next j := rfl
        have g2 : Good w2 := good_plus g1 hf2 rfl
        have hne : sfd ≠ w1.next := by
          intro h
          have := g1 sfd (by omega)
          rw [hs] at this; cases this
        have hn1 : w1.fds w1.next = none := g1 _ (Nat.le_refl _)
        have hn0 : w.fds w1.next = none := by
          rw [hf] at hn1
          simp only [plus, Ne.symm hne, if_false] at hn1
          exact hn1
        have hs2 : w2.fds sfd = some i := by rw [hf2]; simp only [plus, hne, if_false]; exact hs
        have hd2 : w2.fds w1.next = some j := by rw [hf2]; simp [plus]
        have hwo : without w2.fds sfd = plus w.fds w1.next j := by rw [hf2, hf, without_plus2 hn hne]
        have hwo2 : without (without w2.fds sfd) w1.next = w.fds := by rw [hwo, without_plus hn0]
        have hfail : ∀ (w5 : World) (e : Nat), w5.fds = w2.fds → w5.next = w2.next →
            dirFail w5 sfd w1.next e = some (.error e, { w5 with fds := without (without w2.fds sfd) w1.next }) := by
          intro w5 e h5 _
          have c1 : close w5 sfd = some { w5 with fds := without w5.fds sfd } := close_spec _ _ i (by rw [h5]; exact hs2)
          have c2 : close { w5 with fds := without w5.fds sfd } w1.next = some { w5 with fds := without (without w5.fds sfd) w1.next } :=
            close_spec _ _ j (by show without w5.fds sfd w1.next = some j; rw [h5, hwo]; simp [plus])
          rw [h5] at c1 c2
          simp only [dirFail, c1, c2, Option.bind_eq_bind, Option.bind_some]
        have gfail : ∀ (w5 : World), w5.next = w2.next → Good { w5 with fds := without (without w2.fds sfd) w1.next } := by
          intro w5 h5 f hf'
          have : w2.next ≤ f := by rw [← h5]; exact hf'
          show without (without w2.fds sfd) w1.next f = none
          simp only [without]
          split
          · rfl
          · split
            · rfl
            · exact g2 f this
        obtain ⟨r3, pre3, post3, e3, _⟩ := call_spec E w2 (fun fs => some (statNode fs i, fs)) (by simp)
        have e3' : fstat E w2 sfd = some (r3, after w2 pre3 post3) := by simp only [fstat, hs2, Option.bind_eq_bind, Option.bind_some]; exact e3
        cases r3 with
        | error e =>
          refine ⟨.error e, { after w2 pre3 post3 with fds := without (without w2.fds sfd) w1.next }, ?_, gfail _ rfl, hwo2⟩
          simp only [dirOpen, e1, e2', e3', Option.bind_eq_bind, Option.bind_some, hfree, if_false]
          exact hfail _ e rfl rfl
        | ok st =>
          let w3 := after w2 pre3 post3
          obtain ⟨r4, pre4, post4, e4, _⟩ := call_spec E w3 (fun fs => some (statNode fs j, fs)) (by simp)
          have e4' : fstat E w3 w1.next = some (r4, after w3 pre4 post4) := by
            have : w3.fds w1.next = some j := hd2
            simp only [fstat, this, Option.bind_eq_bind, Option.bind_some]; exact e4
          cases r4 with
          | error e =>
            refine ⟨.error e, { after w3 pre4 post4 with fds := without (without w2.fds sfd) w1.next }, ?_, gfail _ rfl, hwo2⟩
            simp only [dirOpen, e1, e2', e3', Option.bind_eq_bind, Option.bind_some, hfree, if_false]
            rw [show fstat E (after w2 pre3 post3) w1.next = _ from e4']
            exact hfail _ e rfl rfl
          | ok st2 =>
            let w4 := after w3 pre4 post4
            by_cases hcmp : w4.fds sfd ≠ w4.fds w1.next
            · refine ⟨.error EACCES, { after w3 pre4 post4 with fds := without (without w2.fds sfd) w1.next }, ?_, gfail _ rfl, hwo2⟩
              simp only [dirOpen, e1, e2', e3', Option.bind_eq_bind, Option.bind_some, hfree, if_false]
              rw [show fstat E (after w2 pre3 post3) w1.next = _ from e4']
              simp only [Option.bind_some]
              rw [if_pos hcmp]
              exact hfail _ EACCES rfl rfl
            · have hcl : close w4 sfd = some { w4 with fds := without w2.fds sfd } := close_spec _ _ i hs2
              refine ⟨.ok w1.next, { w4 with fds := without w2.fds sfd }, ?_, good_without (w := w4) g2 _ _ _, hn0, hfree, j, hwo⟩
              simp only [dirOpen, e1, e2', e3', Option.bind_eq_bind, Option.bind_some, hfree, if_false]
              rw [show fstat E (after w2 pre3 post3) w1.next = _ from e4']
              simp only [Option.bind_some]
              rw [if_neg hcmp, show close (after w3 pre4 post4) sfd = _ from hcl]
              rfl

theorem delLoop_run (E : Env) (sub : World → List UInt8 → Option (Bool × World)) (hs : ∀ w path, Good w → ∃ b w', sub w path = some (b, w') ∧ Good w' ∧ w'.fds = w.fds) (path : List UInt8) :
    ∀ (cs : List Name) (w : World) (failed : Bool), Good w → ∃ b w', delLoop E sub path cs w failed = some (b, w') ∧ Good w' ∧ w'.fds = w.fds := by
  intro cs
  induction cs with
  | nil => intro w failed hg; exact ⟨failed, w, rfl, hg, rfl⟩
  | cons c cs ih =>
    intro w failed hg
    rw [delLoop]
    split
    · exact ih w failed hg
    · obtain ⟨r1, pre, post, e1, _⟩ := call_spec E w (fun fs => some (kLstat E (subpath path c) fs, fs)) (by simp)
      rw [show lstat E w (subpath path c) = _ from e1]
      simp only [Option.bind_eq_bind, Option.bind_some]
      have g1 : Good (after w pre post) := hg
      match r1 with
      | .error e =>
        simp only
        split
        · exact ih _ failed g1
        · exact ih _ true g1
      | .ok true =>
        simp only
        obtain ⟨b, w2, e2, g2, f2⟩ := hs (after w pre post) (subpath path c) g1
        rw [e2]
        simp only [Option.bind_some]
        obtain ⟨r3, pre3, post3, e3, _⟩ := call_spec E w2 (fun fs => some (kRmdir E (subpath path c) fs)) (by simp)
        rw [show rmdir E w2 (subpath path c) = _ from e3]
        simp only [Option.bind_some]
        have g3 : Good (after w2 pre3 post3) := g2
        cases r3 with
        | error e =>
          simp only
          obtain ⟨b, w', h1, h2, h3⟩ := ih (after w2 pre3 post3) true g3
          exact ⟨b, w', h1, h2, h3.trans f2⟩
        | ok _ =>
          simp only
          obtain ⟨b, w', h1, h2, h3⟩ := ih (after w2 pre3 post3) (failed || !b) g3
          exact ⟨_, w', h1, h2, h3.trans f2⟩
      | .ok false =>
        simp only
        obtain ⟨r3, pre3, post3, e3, _⟩ := call_spec E (after w pre post) (fun fs => some (kUnlink E (subpath path c) fs)) (by simp)
        rw [show unlink E (after w pre post) (subpath path c) = _ from e3]
        simp only [Option.bind_some]
        have g3 : Good (after (after w pre post) pre3 post3) := g1
        cases r3 with
        | error e =>
          simp only
          split
          · exact ih _ failed g3
          · exact ih _ true g3
        | ok _ => exact ih _ failed g3

/-- Whatever others do to the filesystem meanwhile, and whichever system calls fail: the call comes to an end, closes no descriptor it did not open, and leaves none open. -/
theorem C108_no_descriptor_leaks (E : Env) : ∀ (free : Nat) (w : World) (path : List UInt8), Good w →
    ∃ b w', deleteDirectoryTree E free w path = some (b, w') ∧ Good w' ∧ w'.fds = w.fds := by
  intro free
  induction free with
  | zero =>
    intro w path hg
    obtain ⟨r, w1, e1, g1, hr⟩ := dirOpen_run E 0 path w hg
    cases r with
    | error e => exact ⟨_, w1, by simp [deleteDirectoryTree, delTree, e1]; rfl, g1, hr⟩
    | ok fd => exact absurd rfl hr.2.1
  | succ free ih =>
    intro w path hg
    obtain ⟨r, w1, e1, g1, hr⟩ := dirOpen_run E (free + 1) path w hg
    cases r with
    | error e => exact ⟨_, w1, by simp [deleteDirectoryTree, delTree, e1]; rfl, g1, hr⟩
    | ok fd =>
      obtain ⟨hn, _, i, hf⟩ := hr
      have hfd : w1.fds fd = some i := by rw [hf]; simp [plus]
      have hread : ∃ l pre post, readNames E w1 fd = some (l, after w1 pre post) := by
        obtain ⟨r2, pre, post, e2, _⟩ := call_spec E w1 (fun fs => some ((.ok (namesIn fs i) : Except Nat (List Name)), fs)) (by simp)
        cases r2 with
        | error e => exact ⟨[], pre, post, by simp only [readNames, hfd, Option.bind_eq_bind, Option.bind_some]; rw [e2]; rfl⟩
        | ok l => exact ⟨l, pre, post, by simp only [readNames, hfd, Option.bind_eq_bind, Option.bind_some]; rw [e2]; rfl⟩
      obtain ⟨l, pre, post, e2⟩ := hread
      obtain ⟨b, w2, e3, g3, f3⟩ := delLoop_run E (delTree E free) ih path l (after w1 pre post) false g1
      have hcl : close w2 fd = some { w2 with fds := without w2.fds fd } := close_spec _ _ i (by rw [f3]; exact hfd)
      refine ⟨!b, { w2 with fds := without w2.fds fd }, by simp [deleteDirectoryTree, delTree, e1, e2, e3, hcl], good_without g3 _ _ _, ?_⟩
      show without w2.fds fd = w.fds
      rw [f3]
      show without w1.fds fd = w.fds
      rw [hf, without_plus hn]

/-! ## Concrete filesystems -/

/-- `/t` (inode 1, user 5's) has a file `f`, a directory `e` (inode 6, user 5's) with a file `p`, and a link `l` to `/s`. `/s` (inode 4) is root's and has a file `p`. -/
def demo5 : FS where
  node := fun i => match i with
    | 0 => some ⟨.dir [([46], 0), ([46, 46], 0), ([116], 1), ([115], 4)], 0, 0⟩
    | 1 => some ⟨.dir [([46], 1), ([46, 46], 0), ([101], 6), ([102], 2), ([108], 3)], 5, 5⟩
    | 2 => some ⟨.reg [1, 2], 0, 0⟩
    | 3 => some ⟨.link [47, 115], 5, 5⟩
    | 4 => some ⟨.dir [([46], 4), ([46, 46], 0), ([112], 5)], 0, 0⟩
    | 5 => some ⟨.reg [9], 0, 0⟩
    | 6 => some ⟨.dir [([46], 6), ([46, 46], 1), ([112], 7)], 5, 5⟩
    | 7 => some ⟨.reg [8], 5, 5⟩
    | _ => none
  root := 0
  fresh := 8

/-- Whether the call reported success, and the names in some directories afterwards. -/
def left (r : Option (Bool × World)) (is : List Nat) : Option (Bool × List (Option (List Name))) :=
  r.map fun p => (p.1, is.map fun i => match p.2.fs.node i with
    | some ⟨.dir ent, _, _⟩ => some (ent.map (·.1))
    | _ => none)

theorem demo5_fits : Fits demo5 2 2 1 := by
  refine ⟨_, rfl, ?_⟩
  intro ent h
  cases h
  refine ⟨by decide, ?_⟩
  intro e he hd
  simp only [List.mem_cons, List.not_mem_nil, or_false] at he
  rcases he with rfl | rfl | rfl | rfl | rfl
  · exact absurd (.inl rfl) hd
  · exact absurd (.inr rfl) hd
  · refine ⟨by decide, by decide, by decide, _, rfl, ?_⟩
    intro ent h
    cases h
    refine ⟨by decide, ?_⟩
    intro e he hd
    simp only [List.mem_cons, List.not_mem_nil, or_false] at he
    rcases he with rfl | rfl | rfl
    · exact absurd (.inl rfl) hd
    · exact absurd (.inr rfl) hd
    · exact ⟨by decide, by decide, by decide, _, rfl, by simp⟩
  · exact ⟨by decide, by decide, by decide, _, rfl, by simp⟩
  · exact ⟨by decide, by decide, by decide, _, rfl, by simp⟩

theorem demo5_dirs : treeDirs demo5 2 1 = [1, 6] := by decide

theorem demo5_root (fs : FS) (h : fs.node fs.root = demo5.node 0) : NotLink fs fs.root := by
  rintro t ⟨u, g, h'⟩
  rw [h] at h'
  cases h'

theorem demo5_way : Resolves (emptied demo5 [1, 6]) 0 [[116]] 0 1 :=
  .name 0 [116] [] 1 0 1 rfl (by rintro t ⟨u, g, h⟩; simp [emptied, demo5] at h) (.here 1)

/-- `/t` is emptied, with `/t/e`; `/s`, to which `/t/l` was a link, still has its file. -/
example : ∃ w', deleteDirectoryTree (alone 0) 100 (world demo5) [47, 116] = some (true, w') ∧ w'.fs = emptied demo5 [1, 6] ∧ w'.fds = (world demo5).fds :=
  C108_tree_deleted_partial (alone 0) (alone_quiet 0) (by decide) (world demo5) (world_good demo5) [47, 116] (by decide) (by decide) (by decide) (demo5_root _ rfl) 1 _ _ rfl rfl 2 demo5_fits
    (by decide) 100 (by omega)
    (.step 0 [116] [] 1 1 0 1 ⟨.dir [([46], 1), ([46, 46], 0)], 5, 5⟩ ⟨.dir [([46], 1), ([46, 46], 0)], 5, 5⟩ rfl rfl demo5_way (by omega) rfl (.inr (.inr ⟨rfl, rfl⟩)) (.done 1))
    0 (by omega) demo5_way

example : left (deleteDirectoryTree (alone 0) 100 (world demo5) [47, 116]) [0, 1, 4, 6] =
    some (true, [some [[46], [46, 46], [116], [115]], some [[46], [46, 46]], some [[46], [46, 46], [112]], some [[46], [46, 46]]]) := by decide +kernel

/-- `/x` is not there. -/
example : ∃ w', deleteDirectoryTree (alone 0) 100 (world demo5) [47, 120] = some (true, w') ∧ w'.fs = demo5 ∧ w'.fds = (world demo5).fds :=
  C108_missing_is_success (alone 0) (alone_quiet 0) (by decide) (world demo5) (world_good demo5) [47, 120] (by decide) (by decide) (demo5_root _ rfl) [] [120] [] (by decide) 0 (.done 0) rfl 100

/-- Through user 5's link `/t/l` to root's directory `/s` root deletes nothing. -/
example : ∃ w', deleteDirectoryTree (alone 0) 100 (world demo5) [47, 116, 47, 108] = some (false, w') ∧ w'.fs = demo5 ∧ w'.fds = (world demo5).fds :=
  C108_untrusted_link_refused (alone 0) (alone_quiet 0) (by decide) (world demo5) (world_good demo5) [47, 116, 47, 108] (by decide) (by decide) (demo5_root _ rfl) [[116]] [108] [] (by decide) 1
    (.step 0 [116] [] 1 1 0 1 _ _ rfl rfl (.name 0 [116] [] 1 0 1 rfl (by rintro t ⟨u, g, h⟩; simp [world, demo5] at h) (.here 1)) (by omega) rfl (.inr (.inr ⟨rfl, rfl⟩)) (.done 1))
    3 ⟨.link [47, 115], 5, 5⟩ rfl rfl 1 4 (by omega)
    (.link 1 [108] [] 3 0 4 [47, 115] rfl ⟨5, 5, rfl⟩ (.name 0 [115] [] 4 0 4 rfl (by rintro t ⟨u, g, h⟩; simp [world, demo5] at h) (.here 4)))
    _ rfl (by simp [Trusted, alone]) (by simp [Openable]) 100

/-- A path that leads to the directory through the tree itself: `/t/e/..` is `/t`. The call removes `/t/e` and then takes everything else to have disappeared: it reports success, but `/t/f` and `/t/l` are still there. -/
theorem C108_path_through_tree_negated :
    Resolves demo5 0 [[116], [101], [46, 46]] 0 1 ∧
    left (deleteDirectoryTree (alone 0) 100 (world demo5) [47, 116, 47, 101, 47, 46, 46]) [1] = some (true, [some [[46], [46, 46], [102], [108]]]) := by
  refine ⟨?_, by decide +kernel⟩
  exact .name 0 [116] _ 1 0 1 rfl (by rintro t ⟨u, g, h⟩; simp [demo5] at h)
    (.name 1 [101] _ 6 0 1 rfl (by rintro t ⟨u, g, h⟩; simp [demo5] at h) (.name 6 [46, 46] _ 1 0 1 rfl (by rintro t ⟨u, g, h⟩; simp [demo5] at h) (.here 1)))

/-- `demo5` after user 5, in the directory `/t`, which user 5 owns, has replaced the directory `e` by a link to `/s`. -/
def demo6 : FS := { demo5 with node := fun i => if i = 1 then some ⟨.dir [([46], 1), ([46, 46], 0), ([101], 3), ([102], 2), ([108], 3)], 5, 5⟩ else demo5.node i }

/-- A process of root's, while user 5 does that just before its 21st system call. -/
def disturbed6 : Env := { alone 0 with adv := fun n fs => if n = 20 then demo6 else fs }

/-- The names are read from one directory and removed from another: while root deletes the tree `/t`, user 5, changing only the user's own directory `/t`, gets root to remove `/s/p`, which is root's and outside the tree. -/
theorem C108_race_negated :
    (∀ i, i ≠ 1 → demo6.node i = demo5.node i) ∧ (∃ ent, demo5.node 1 = some ⟨.dir ent, 5, 5⟩) ∧ (∃ ent, demo6.node 1 = some ⟨.dir ent, 5, 5⟩) ∧
    (∀ n fs, disturbed6.adv n fs = fs ∨ disturbed6.adv n fs = demo6) ∧ 4 ∉ treeDirs demo5 2 1 ∧ demo5.node 4 = some ⟨.dir [([46], 4), ([46, 46], 0), ([112], 5)], 0, 0⟩ ∧
    left (deleteDirectoryTree disturbed6 100 (world demo5) [47, 116]) [4] = some (false, [some [[46], [46, 46]]]) := by
  refine ⟨?_, ⟨_, rfl⟩, ⟨_, rfl⟩, ?_, by decide, rfl, by decide +kernel⟩
  · intro i hi; simp [demo6, hi]
  · intro n fs; simp only [disturbed6]; split
    · exact .inr rfl
    · exact .inl rfl

/-- 4093 slashes and `t`: a path of 4094 bytes, which system calls accept. -/
def longPath : List UInt8 := List.replicate 4093 47 ++ [116]

theorem longPath_length : longPath.length = 4094 := by
  unfold longPath
  rw [List.length_append, List.length_replicate]; rfl

theorem subpath_cut {path : List UInt8} (h : path.length = 4094) (c : Name) : subpath path c = path ++ [47] ∧ subpath (path ++ [47]) c = path ++ [47] := by
  constructor
  · rw [subpath, show PATH_MAX - 1 = path.length + 1 by rw [h]; rfl, List.take_length_add_append]; rfl
  · rw [subpath, List.take_append_of_le_length (by simp [h, PATH_MAX]), List.take_of_length_le (by simp [h, PATH_MAX])]

set_option maxRecDepth 100000 in
/-- The buffer for the path of an entry has 4096 bytes and is filled without a check: for a directory whose path has 4094 bytes, every entry's path is cut to that of the directory itself. The
call goes down into the same directory until it runs out of descriptors (here 2, which are enough for the two levels of the tree), and deletes nothing. -/
theorem C108_truncated_path_negated : (∀ c, subpath longPath c = longPath ++ [47]) ∧ (∀ c, subpath (longPath ++ [47]) c = longPath ++ [47]) ∧
    left (deleteDirectoryTree (alone 0) 2 (world demo5) [47, 116]) [1, 6] = some (true, [some [[46], [46, 46]], some [[46], [46, 46]]]) ∧
    left (deleteDirectoryTree (alone 0) 2 (world demo5) longPath) [1, 6] = some (false, [some [[46], [46, 46], [101], [102], [108]], some [[46], [46, 46], [112]]]) :=
  ⟨fun c => (subpath_cut longPath_length c).1, fun c => (subpath_cut longPath_length c).2, by decide +kernel, by decide +kernel⟩

end SafeOpen
