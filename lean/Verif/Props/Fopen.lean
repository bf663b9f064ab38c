import Verif.Model.Fopen
import Verif.Spec.Fopen
import Verif.Props.SafeChown
/-! # C109: safe_fopen, safe_creat and safe_chdir -/
namespace SafeOpen
open SafeOpenSpec FopenSpec

/-- The flags for the first character, with or without `+` and `x`. -/
def modeVal (first : Fin 3) (plus excl : Bool) : UInt32 :=
  (match first with
    | 0 => if plus then 2 else 0
    | 1 => 512 ||| 64 ||| if plus then 2 else 1
    | 2 => 64 ||| if plus then 2 else 1) ||| if excl then 128 else 0

theorem modeChar_val (first : Fin 3) (p x : Bool) (c : UInt8) (h : c = 43 ∨ c = 98 ∨ c = 116 ∨ c = 120) :
    modeChar (modeVal first p x) c = some (modeVal first (p || c == 43) (x || c == 120)) := by
  rcases h with rfl | rfl | rfl | rfl <;> revert first p x <;> decide

theorem modeFlags_val (first : Fin 3) : ∀ (rest : List UInt8) (p x : Bool), (∀ c ∈ rest, c = 43 ∨ c = 98 ∨ c = 116 ∨ c = 120) →
    modeFlags (modeVal first p x) rest = some (modeVal first (p || rest.contains 43) (x || rest.contains 120)) := by
  intro rest
  induction rest with
  | nil => intro p x _; simp [modeFlags]
  | cons c cs ih =>
    intro p x h
    simp only [modeFlags, modeChar_val first p x c (h c (by simp)), Option.bind_eq_bind, Option.bind_some]
    rw [ih _ _ (fun c hc => h c (by simp [hc]))]
    have e1 : (p || c == 43 || cs.contains 43) = (p || (c :: cs).contains 43) := by
      rw [List.contains_cons, Bool.or_assoc, show (c == 43) = (43 == c) from BEq.comm]
    have e2 : (x || c == 120 || cs.contains 120) = (x || (c :: cs).contains 120) := by
      rw [List.contains_cons, Bool.or_assoc, show (c == 120) = (120 == c) from BEq.comm]
    rw [e1, e2]

/-- For every standard mode, the file is opened for what the mode says, created, truncated and insisted to be new exactly if the mode says so, and the stream reads and writes what the mode says. -/
theorem C109_modes_mean_what_they_say (m : List UInt8) (h : Standard m) :
    ∃ f, modeFlags 0 m = some f ∧ toFlags f = ⟨mayWrite m, creates m, exclusive m, truncates m⟩ ∧
      ∀ fd, fdopen fd f m = some ⟨fd, mayRead m, mayWrite m, appends m, 0⟩ := by
  obtain ⟨c, rest, rfl, hc, hr, hlen⟩ := h
  have htake : rest.take 4 = rest := List.take_of_length_le hlen
  have key : ∀ (first : Fin 3), modeChar 0 c = some (modeVal first false false) →
      modeFlags 0 (c :: rest) = some (modeVal first (rest.contains 43) (rest.contains 120)) := by
    intro first h1
    simp only [modeFlags, h1, Option.bind_eq_bind, Option.bind_some]
    rw [modeFlags_val first rest false false hr]
    simp
  rcases hc with rfl | rfl | rfl
  · refine ⟨_, key 0 (by decide), ?_, fun fd => ?_⟩
    · simp only [mayWrite, creates, exclusive, truncates, List.head?_cons, List.contains_cons]
      generalize rest.contains 43 = p, rest.contains 120 = x
      cases p <;> cases x <;> rfl
    · simp only [fdopen, htake, mayRead, mayWrite, appends, List.head?_cons, List.contains_cons]
      generalize rest.contains 43 = p, rest.contains 120 = x
      cases p <;> cases x <;> simp [modeVal] <;> decide
  · refine ⟨_, key 1 (by decide), ?_, fun fd => ?_⟩
    · simp only [mayWrite, creates, exclusive, truncates, List.head?_cons, List.contains_cons]
      generalize rest.contains 43 = p, rest.contains 120 = x
      cases p <;> cases x <;> rfl
    · simp only [fdopen, htake, mayRead, mayWrite, appends, List.head?_cons, List.contains_cons]
      generalize rest.contains 43 = p, rest.contains 120 = x
      cases p <;> cases x <;> simp [modeVal] <;> decide
  · refine ⟨_, key 2 (by decide), ?_, fun fd => ?_⟩
    · simp only [mayWrite, creates, exclusive, truncates, List.head?_cons, List.contains_cons]
      generalize rest.contains 43 = p, rest.contains 120 = x
      cases p <;> cases x <;> rfl
    · simp only [fdopen, htake, mayRead, mayWrite, appends, List.head?_cons, List.contains_cons]
      generalize rest.contains 43 = p, rest.contains 120 = x
      cases p <;> cases x <;> simp [modeVal] <;> decide

/-- Any other character in the mode ends the program before a file is touched. -/
theorem C109_other_characters_end_the_program (E : Env) (w : World) (path m : List UInt8) (h : ∃ c ∈ m, c ∉ [114, 119, 97, 43, 98, 116, 120]) : safeFopen E w path m = none := by
  have key : ∀ (m : List UInt8) (f : UInt32), (∃ c ∈ m, c ∉ [114, 119, 97, 43, 98, 116, 120]) → modeFlags f m = none := by
    intro m
    induction m with
    | nil => intro f ⟨c, hc, _⟩; simp at hc
    | cons a m ih =>
      intro f ⟨c, hc, hn⟩
      simp only [modeFlags, Option.bind_eq_bind]
      rcases List.mem_cons.mp hc with rfl | hc
      · simp only [List.mem_cons, List.not_mem_nil, or_false, not_or] at hn
        simp [modeChar, hn]
      · cases modeChar f a with
        | none => rfl
        | some f' => exact ih f' ⟨c, hc, hn⟩
  simp [safeFopen, key m 0 h]

/-- Whatever others do: with a standard mode, safe_fopen either fails, leaves the descriptors as they were and has changed nothing but, perhaps, creating or emptying the file for which it then could not go to the end
(mode `a`, so: creating it); or it returns a stream with what the mode says on one new descriptor, to an object reached along the path with every component checked. Missing: effective user ids over 1. -/
theorem C109_fopen_checked_partial (E : Env) (he : E.euid ≤ 1) (w : World) (hg : Good w) (path m : List UInt8) (hm : Standard m) :
    ∃ r w', safeFopen E w path m = some (r, w') ∧
      match r with
      | .error _ => w'.fds = w.fds ∧ (appends m = false → ∃ l, w'.log = w.log ++ l ∧ Only l)
      | .ok s => w.fds s.fd = none ∧ s.reads = mayRead m ∧ s.writes = mayWrite m ∧ s.appends = appends m ∧ ∃ i s0, w'.fds = plus w.fds s.fd i ∧ w'.log[w.log.length]? = some s0 ∧
          Walked w'.log E.euid E.euid E.egid (w.log.length + 1) (if path.head? = some 47 then s0.1.root else E.cwd) (comps path) i := by
  obtain ⟨f, e1, e2, e3⟩ := C109_modes_mean_what_they_say m hm
  have hf : (toFlags f).trunc = true → (toFlags f).wr = true := by
    rw [e2]
    simp only [truncates, mayWrite]
    intro h
    simp at h
    simp [h]
  obtain ⟨r, w1, e4, g1, l, hl, hr⟩ := safeOpen_spec E (toFlags f) path w hg hf
  cases r with
  | error e => exact ⟨.error e, w1, by simp [safeFopen, e1, e4], hr.1, fun _ => ⟨l, hl, hr.2⟩⟩
  | ok fd =>
    obtain ⟨hn, i, s0, h1, h2, h3, _⟩ := hr
    rw [pUid_eq E he] at h3
    have hfd : w1.fds fd = some i := by rw [h1]; simp [plus]
    by_cases ha : m.head? = some 97
    · obtain ⟨r5, pre, post, e5, _⟩ := call_spec E w1 (fun fs => some (match statNode fs i with
        | .ok st => .ok st.size
        | .error e => .error e, fs)) (by simp)
      have e5' : seekEnd E w1 fd = some (r5, after w1 pre post) := by simp only [seekEnd, hfd, Option.bind_eq_bind, Option.bind_some]; exact e5
      cases r5 with
      | error e =>
        have hcl : close (after w1 pre post) fd = some { after w1 pre post with fds := without w1.fds fd } := close_spec _ _ i hfd
        refine ⟨.error e, { after w1 pre post with fds := without w1.fds fd }, by simp [safeFopen, e1, e4, e3, ha, e5', hcl], ?_, ?_⟩
        · show without w1.fds fd = w.fds
          rw [h1, without_plus hn]
        · simp [appends, ha]
      | ok p =>
        refine ⟨.ok ⟨fd, mayRead m, mayWrite m, appends m, p⟩, after w1 pre post, by simp [safeFopen, e1, e4, e3, ha, e5'], hn, rfl, rfl, rfl, i, s0, h1, ?_, ?_⟩
        · show (w1.log ++ [(pre, post)])[_]? = some s0
          rw [List.getElem?_append_left (List.getElem?_eq_some_iff.mp h2).1]; exact h2
        · exact walked_mono h3 [(pre, post)]
    · exact ⟨.ok ⟨fd, mayRead m, mayWrite m, appends m, 0⟩, w1, by simp [safeFopen, e1, e4, e3, ha], hn, rfl, rfl, rfl, i, s0, h1, h2, h3⟩

/-- When nobody interferes: safe_fopen opens a file along a trusted path with any standard mode without `x`. The stream is for the object the path denotes; with `w` the file is emptied, with `a` the stream begins at its end,
and otherwise nothing changes. -/
theorem C109_fopen_opens (E : Env) (hQ : Quiet E) (he : E.euid ≤ 1) (w : World) (hg : Good w) (path m : List UInt8) (hm : Standard m) (hx : exclusive m = false ∨ creates m = false)
    (hp : path ≠ []) (hl : path.getLast? ≠ some 47) (hroot : NotLink w.fs w.fs.root) (j u g : Nat) (data : List UInt8)
    (hT : TrustedPath w.fs E.euid (start E w.fs path) (comps path) j) (hn : w.fs.node j = some ⟨.reg data, u, g⟩) :
    ∃ s w', safeFopen E w path m = some (.ok s, w') ∧ w'.fds = plus w.fds s.fd j ∧ s.reads = mayRead m ∧ s.writes = mayWrite m ∧ s.appends = appends m ∧
      s.pos = (if appends m then data.length else 0) ∧ w'.fs = if truncates m then setNode w.fs j ⟨.reg [], u, g⟩ else w.fs := by
  obtain ⟨f, e1, e2, e3⟩ := C109_modes_mean_what_they_say m hm
  have hf : (toFlags f).trunc = true → (toFlags f).wr = true := by
    rw [e2]
    simp only [truncates, mayWrite]
    intro h
    simp at h
    simp [h]
  obtain ⟨fd, w1, _, e4, h1, _, h3⟩ := C50_trusted_path_opens E hQ he w hg path (toFlags f) hf hp hl hroot j _ hT hn (by simp [Openable]) (by
    rw [e2]; simp only [not_and]; rcases hx with h | h <;> simp [h])
  have hfs : w1.fs = if truncates m then setNode w.fs j ⟨.reg [], u, g⟩ else w.fs := by
    rw [h3, e2]
    simp only [truncated, hn]
  have hfd : w1.fds fd = some j := by rw [h1]; simp [plus]
  by_cases ha : m.head? = some 97
  · have htr : truncates m = false := by simp [truncates, ha]
    rw [htr] at hfs
    simp only [Bool.false_eq_true, if_false] at hfs
    have e5 : seekEnd E w1 fd = some (.ok data.length, after w1 w1.fs w1.fs) := by
      simp only [seekEnd, hfd, Option.bind_eq_bind, Option.bind_some]
      refine call_quiet E hQ w1 _ _ _ ?_
      simp only [statNode, hfs, hn, statOf]
    exact ⟨⟨fd, mayRead m, mayWrite m, appends m, data.length⟩, after w1 w1.fs w1.fs, by simp [safeFopen, e1, e4, e3, ha, e5], h1, rfl, rfl, rfl, by simp [appends, ha], by rw [htr]; exact hfs⟩
  · exact ⟨⟨fd, mayRead m, mayWrite m, appends m, 0⟩, w1, by simp [safeFopen, e1, e4, e3, ha], h1, rfl, rfl, rfl, by simp [appends, ha], hfs⟩

/-- safe_creat is safe_open with the flags that POSIX gives for creat: write, create, truncate. -/
theorem C109_creat (E : Env) (w : World) (path : List UInt8) : safeCreat E w path = safeOpen E w path ⟨true, true, false, true⟩ := by
  have : toFlags (O_CREAT ||| O_WRONLY ||| O_TRUNC) = ⟨true, true, false, true⟩ := by decide
  rw [safeCreat, this]

/-- Whatever others do: safe_chdir changes nothing in the filesystem, leaves the descriptors as they were, and the new working directory, if any, was reached along the path with every component checked. Missing: effective
user ids over 1. -/
theorem C109_chdir_checked_partial (E : Env) (he : E.euid ≤ 1) (w : World) (hg : Good w) (path : List UInt8) :
    ∃ r w' l, safeChdir E w path = some (r, w') ∧ w'.fds = w.fds ∧ w'.log = w.log ++ l ∧ Only l ∧
      ∀ d, r = .ok d → ∃ s0 s1 ent u g, w'.log[w.log.length]? = some s0 ∧ s1 ∈ l ∧ s1.1.node d = some ⟨.dir ent, u, g⟩ ∧
        Walked w'.log E.euid E.euid E.egid (w.log.length + 1) (if path.head? = some 47 then s0.1.root else E.cwd) (comps path) d := by
  obtain ⟨r, w1, e1, g1, l, hl, ol, hr⟩ := safeOpen_rd E path w hg
  cases r with
  | error e => exact ⟨.error e, w1, l, by simp [safeChdir, e1], hr, hl, ol, by simp⟩
  | ok fd =>
    obtain ⟨hn, i, s0, hf, hs0, hW⟩ := hr
    rw [pUid_eq E he] at hW
    have hfd : w1.fds fd = some i := by rw [hf]; simp [plus]
    obtain ⟨r2, pre, post, e2, h2⟩ := call_spec E w1 (fun fs => some ((match fs.node i with
      | some ⟨.dir _, _, _⟩ => .ok i
      | some _ => .error ENOTDIR
      | none => .error ESTALE : Except Nat Nat), fs)) (by simp)
    have hpp : post = pre := by
      rcases h2 with ⟨_, _, h⟩ | h
      · exact h
      · simp only [Option.some.injEq, Prod.mk.injEq] at h; exact h.2.symm
    subst hpp
    have e2' : fchdir E w1 fd = some (r2, after w1 post post) := by simp only [fchdir, hfd, Option.bind_eq_bind, Option.bind_some]; exact e2
    have hcl : close (after w1 post post) fd = some { after w1 post post with fds := without w1.fds fd } := close_spec _ _ i hfd
    refine ⟨r2, { after w1 post post with fds := without w1.fds fd }, l ++ [(post, post)], by simp [safeChdir, e1, e2', hcl], ?_, by simp [after, hl], only_append ol (only_one post), ?_⟩
    · show without w1.fds fd = w.fds
      rw [hf, without_plus hn]
    · intro d hd
      subst hd
      rcases h2 with ⟨_, h, _⟩ | h
      · cases h
      · simp only [Option.some.injEq, Prod.mk.injEq, and_true] at h
        split at h
        · rename_i ent u g hnode
          cases h
          refine ⟨s0, (post, post), ent, u, g, ?_, by simp, hnode, ?_⟩
          · show (w1.log ++ [(post, post)])[_]? = some s0
            rw [List.getElem?_append_left (List.getElem?_eq_some_iff.mp hs0).1]; exact hs0
          · exact walked_mono hW [(post, post)]
        · cases h
        · cases h

/-- When nobody interferes: along a trusted path to a directory, safe_chdir goes there. -/
theorem C109_chdir_goes_there (E : Env) (hQ : Quiet E) (he : E.euid ≤ 1) (w : World) (hg : Good w) (path : List UInt8) (hp : path = [47] ∨ (path ≠ [] ∧ path.getLast? ≠ some 47))
    (hroot : NotLink w.fs w.fs.root) (d : Nat) (hT : TrustedPath w.fs E.euid (start E w.fs path) (comps path) d) (ent : List (Name × Nat)) (u g : Nat) (hn : w.fs.node d = some ⟨.dir ent, u, g⟩) :
    ∃ w', safeChdir E w path = some (.ok d, w') ∧ w'.fds = w.fds ∧ w'.fs = w.fs := by
  obtain ⟨fd, w1, e1, hf, hfs, hnone, g1⟩ := safeOpen_dir_quiet E hQ he w hg path hp hroot d hT _ hn (by simp [Openable])
  have hfd : w1.fds fd = some d := by rw [hf]; simp [plus]
  have e2 : fchdir E w1 fd = some (.ok d, after w1 w1.fs w1.fs) := by
    simp only [fchdir, hfd, Option.bind_eq_bind, Option.bind_some]
    refine call_quiet E hQ w1 _ _ _ ?_
    simp only [hfs, hn]
  have hcl : close (after w1 w1.fs w1.fs) fd = some { after w1 w1.fs w1.fs with fds := without w1.fds fd } := close_spec _ _ d hfd
  refine ⟨{ after w1 w1.fs w1.fs with fds := without w1.fds fd }, by simp [safeChdir, e1, e2, hcl], ?_, hfs⟩
  show without w1.fds fd = w.fds
  rw [hf, without_plus hnone]

/-! ## Concrete cases -/

theorem standard_ab : Standard [97, 43, 98] := ⟨97, [43, 98], rfl, .inr (.inr rfl), by simp, by decide⟩
theorem standard_wb : Standard [119, 98] := ⟨119, [98], rfl, .inr (.inl rfl), by simp, by decide⟩

/-- `/t/f`, which has two bytes, for appending and reading. -/
example : ∃ s w', safeFopen (alone 0) (world demo) [47, 116, 47, 102] [97, 43, 98] = some (.ok s, w') ∧ w'.fds = plus (world demo).fds s.fd 2 ∧ s.reads = true ∧ s.writes = true ∧ s.appends = true ∧
    s.pos = 2 ∧ w'.fs = demo :=
  C109_fopen_opens (alone 0) (alone_quiet 0) (by decide) (world demo) (world_good demo) [47, 116, 47, 102] [97, 43, 98] standard_ab (by decide) (by decide) (by decide) demo_root 2 0 0 [1, 2] (demo_f 0) rfl

/-- And for writing: it is emptied. -/
example : ∃ s w', safeFopen (alone 0) (world demo) [47, 116, 47, 102] [119, 98] = some (.ok s, w') ∧ w'.fds = plus (world demo).fds s.fd 2 ∧ s.reads = false ∧ s.writes = true ∧ s.appends = false ∧
    s.pos = 0 ∧ w'.fs = setNode demo 2 ⟨.reg [], 0, 0⟩ :=
  C109_fopen_opens (alone 0) (alone_quiet 0) (by decide) (world demo) (world_good demo) [47, 116, 47, 102] [119, 98] standard_wb (by decide) (by decide) (by decide) demo_root 2 0 0 [1, 2] (demo_f 0) rfl

example : ∃ w', safeChdir (alone 0) (world demo) [47, 116] = some (.ok 1, w') ∧ w'.fds = (world demo).fds ∧ w'.fs = demo :=
  C109_chdir_goes_there (alone 0) (alone_quiet 0) (by decide) (world demo) (world_good demo) [47, 116] (by decide) demo_root 1 (demo_t 0) _ 5 5 rfl

/-- Mode `q`. -/
example : safeFopen (alone 0) (world demo) [47, 116, 47, 102] [114, 113] = none := C109_other_characters_end_the_program _ _ _ _ ⟨113, by decide, by decide⟩

/-- The error of a safe_fopen call or none, and the content of a file afterwards. -/
def contentAfter (r : Option (Except Nat Stream × World)) (i : Nat) : Option (Option Nat × Option Kind) :=
  r.map fun p => (match p.1 with | .ok _ => none | .error e => some e, (p.2.fs.node i).map (·.kind))

/-- Each letter of the mode is accepted anywhere and adds its flags, so the file is opened before the mode is refused: with `rw` (a common mistake) the call fails with EINVAL, having emptied the file. -/
theorem C109_rw_empties_the_file_negated : contentAfter (safeFopen (alone 0) (world demo) [47, 116, 47, 102] [114, 119]) 2 = some (some EINVAL, some (.reg [])) ∧
    (demo.node 2).map (·.kind) = some (.reg [1, 2]) := by decide +kernel

/-- The flags that the mode loop can have collected: any of O_WRONLY, O_RDWR, O_CREAT, O_EXCL and O_TRUNC. -/
def fiveBits (k : Fin 32) : UInt32 :=
  (if k.val.testBit 0 then 1 else 0) ||| (if k.val.testBit 1 then 2 else 0) ||| (if k.val.testBit 2 then 64 else 0) ||| (if k.val.testBit 3 then 128 else 0) ||| (if k.val.testBit 4 then 512 else 0)

def Collected (f : UInt32) : Prop := ∃ k : Fin 32, f = fiveBits k ∧ ((toFlags f).trunc = true → (toFlags f).wr = true)

theorem modeChar_collected (f : UInt32) (c : UInt8) (hf : Collected f) (hc : c ∈ [114, 119, 97, 43, 98, 116, 120]) : ∃ g, modeChar f c = some g ∧ Collected g := by
  obtain ⟨k, rfl, h⟩ := hf
  have key : ∀ k : Fin 32, ((toFlags (fiveBits k)).trunc = true → (toFlags (fiveBits k)).wr = true) → ∀ c ∈ ([114, 119, 97, 43, 98, 116, 120] : List UInt8),
      ∃ j : Fin 32, modeChar (fiveBits k) c = some (fiveBits j) ∧ ((toFlags (fiveBits j)).trunc = true → (toFlags (fiveBits j)).wr = true) := by decide +kernel
  obtain ⟨j, h1, h2⟩ := key k h c hc
  exact ⟨_, h1, j, rfl, h2⟩

theorem modeFlags_collected : ∀ (m : List UInt8) (f : UInt32), Collected f → (∀ c ∈ m, c ∈ [114, 119, 97, 43, 98, 116, 120]) → ∃ g, modeFlags f m = some g ∧ Collected g := by
  intro m
  induction m with
  | nil => intro f hf _; exact ⟨f, rfl, hf⟩
  | cons c m ih =>
    intro f hf hm
    obtain ⟨g, h1, h2⟩ := modeChar_collected f c hf (hm c (by simp))
    simp only [modeFlags, h1, Option.bind_eq_bind, Option.bind_some]
    exact ih g h2 (fun c hc => hm c (by simp [hc]))

/-- Whatever others do, with every mode made of the characters that are accepted, in any order (`rw`, say, for which the stream is refused after the file has been opened): when safe_fopen fails every descriptor is as it was,
and when it succeeds there is exactly one more, the stream's. -/
theorem C109_fopen_leaves_no_descriptor (E : Env) (w : World) (hg : Good w) (path m : List UInt8) (hm : ∀ c ∈ m, c ∈ [114, 119, 97, 43, 98, 116, 120]) :
    ∃ r w', safeFopen E w path m = some (r, w') ∧
      match r with
      | .error _ => w'.fds = w.fds
      | .ok s => w.fds s.fd = none ∧ ∃ i, w'.fds = plus w.fds s.fd i := by
  obtain ⟨f, e1, k, _, hf⟩ := modeFlags_collected m 0 ⟨0, by decide, by decide⟩ hm
  obtain ⟨r, w1, e4, g1, l, hl, hr⟩ := safeOpen_spec E (toFlags f) path w hg hf
  cases r with
  | error e => exact ⟨.error e, w1, by simp [safeFopen, e1, e4], hr.1⟩
  | ok fd =>
    obtain ⟨hn, i, s0, h1, h2, h3, _⟩ := hr
    have hfd : w1.fds fd = some i := by rw [h1]; simp [plus]
    cases e3 : fdopen fd f m with
    | none =>
      have hcl : close w1 fd = some { w1 with fds := without w1.fds fd } := close_spec _ _ i hfd
      refine ⟨.error EINVAL, { w1 with fds := without w1.fds fd }, by simp [safeFopen, e1, e4, e3, hcl], ?_⟩
      show without w1.fds fd = w.fds
      rw [h1, without_plus hn]
    | some s =>
      have hsfd : s.fd = fd := by
        unfold fdopen at e3
        split at e3
        · cases e3
        · simp only at e3
          (repeat' split at e3) <;> first | cases e3; done | (cases e3; rfl)
      by_cases ha : m.head? = some 97
      · obtain ⟨r5, pre, post, e5, _⟩ := call_spec E w1 (fun fs => some (match statNode fs i with
          | .ok st => .ok st.size
          | .error e => .error e, fs)) (by simp)
        have e5' : seekEnd E w1 fd = some (r5, after w1 pre post) := by simp only [seekEnd, hfd, Option.bind_eq_bind, Option.bind_some]; exact e5
        cases r5 with
        | error e =>
          have hcl : close (after w1 pre post) fd = some { after w1 pre post with fds := without w1.fds fd } := close_spec _ _ i hfd
          refine ⟨.error e, { after w1 pre post with fds := without w1.fds fd }, by simp [safeFopen, e1, e4, e3, ha, e5', hcl], ?_⟩
          show without w1.fds fd = w.fds
          rw [h1, without_plus hn]
        | ok p => exact ⟨.ok { s with pos := p }, after w1 pre post, by simp [safeFopen, e1, e4, e3, ha, e5'], by rw [← hsfd] at hn; exact hn, i, by show w1.fds = _; rw [hsfd]; exact h1⟩
      · exact ⟨.ok s, w1, by simp [safeFopen, e1, e4, e3, ha], by rw [← hsfd] at hn; exact hn, i, by rw [hsfd]; exact h1⟩

/-- `rw`, the mode of `C109_rw_empties_the_file_negated`: refused, and no descriptor is left. -/
example : ∃ r w', safeFopen (alone 0) (world demo) [47, 116, 47, 102] [114, 119] = some (r, w') ∧
      match r with
      | .error _ => w'.fds = (world demo).fds
      | .ok s => (world demo).fds s.fd = none ∧ ∃ i, w'.fds = plus (world demo).fds s.fd i :=
  C109_fopen_leaves_no_descriptor _ _ (world_good demo) _ _ (by decide)

end SafeOpen
