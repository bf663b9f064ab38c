import Verif.Lemmas.SafeOpenQuiet
/-! # C50: what safe_open opens -/
namespace SafeOpen
open SafeOpenSpec

theorem pUid_eq (E : Env) (h : E.euid ≤ 1) : pUid E = E.euid := by
  unfold pUid; split <;> omega

/-! ## Whatever others do to the filesystem -/

/-- Whatever others do between the system calls: the descriptor returned is of an object reached from the root (or working) directory component by component,
each component having been looked at, opened, and looked at again, and the ownership rule holding for what was seen. Missing: effective user ids over 1
(see `C50_uid_wrong_negated`), and that what was looked at is what was opened (see `C50_race_negated`). -/
theorem C50_every_component_checked_partial (E : Env) (he : E.euid ≤ 1) (fl : Flags) (path : List UInt8) (w : World) (hg : Good w) (hf : fl.trunc = true → fl.wr = true)
    (fd : Nat) (w' : World) (h : safeOpen E w path fl = some (.ok fd, w')) :
    ∃ i s0, w'.fds fd = some i ∧ w'.log[w.log.length]? = some s0 ∧
      Walked w'.log E.euid E.euid E.egid (w.log.length + 1) (if path.head? = some 47 then s0.1.root else E.cwd) (comps path) i := by
  obtain ⟨r, w2, e, _, l, _, hr⟩ := safeOpen_spec E fl path w hg hf
  rw [h] at e
  cases e
  obtain ⟨_, i, s0, h1, h2, h3, _⟩ := hr
  refine ⟨i, s0, by rw [h1]; simp [plus], h2, ?_⟩
  rw [pUid_eq E he] at h3
  exact h3

/-- Whatever others do: no undefined behaviour, no descriptor is leaked, and none that the caller had is closed. -/
theorem C50_no_descriptor_leaks (E : Env) (fl : Flags) (path : List UInt8) (w : World) (hg : Good w) (hf : fl.trunc = true → fl.wr = true) :
    ∃ r w', safeOpen E w path fl = some (r, w') ∧
      match r with
      | .error _ => w'.fds = w.fds
      | .ok fd => w.fds fd = none ∧ ∃ i, w'.fds = plus w.fds fd i := by
  obtain ⟨r, w2, e, _, l, _, hr⟩ := safeOpen_spec E fl path w hg hf
  refine ⟨r, w2, e, ?_⟩
  cases r with
  | error _ => exact hr.1
  | ok fd => obtain ⟨h0, i, s0, h1, _⟩ := hr; exact ⟨h0, i, h1⟩

/-- Whatever others do: a failed call changed nothing in the filesystem itself. -/
theorem C50_failure_changes_nothing (E : Env) (fl : Flags) (path : List UInt8) (w : World) (hg : Good w) (hf : fl.trunc = true → fl.wr = true)
    (e : Nat) (w' : World) (h : safeOpen E w path fl = some (.error e, w')) : ∃ l, w'.log = w.log ++ l ∧ Only l := by
  obtain ⟨r, w2, e, _, l, hl, hr⟩ := safeOpen_spec E fl path w hg hf
  rw [h] at e
  cases e
  exact ⟨l, hl, hr.2⟩

/-- Whatever others do: the only effect of a successful call is the creation of the file that is returned, under the last name of the path, with `O_CREAT`,
at a moment when the name did not exist; or the truncation of the file that is returned, with `O_TRUNC`. -/
theorem C50_only_the_returned_file_is_changed (E : Env) (fl : Flags) (path : List UInt8) (w : World) (hg : Good w) (hf : fl.trunc = true → fl.wr = true)
    (fd : Nat) (w' : World) (h : safeOpen E w path fl = some (.ok fd, w')) :
    ∃ l i, w'.log = w.log ++ l ∧ w'.fds fd = some i ∧
      (Only l ∨
       (fl.creat = true ∧ ∃ l' pre d dn c, l = l' ++ [(pre, created pre d dn c E.euid E.egid)] ∧ Only l' ∧ (comps path).getLast? = some c ∧
          entry pre d c = .error ENOENT ∧ pre.node d = some dn ∧ i = pre.fresh ∧ pre.node i = none) ∨
       (fl.trunc = true ∧ ∃ l' pre, l = l' ++ [(pre, truncated pre i)] ∧ Only l')) := by
  obtain ⟨r, w2, e, _, l, hl, hr⟩ := safeOpen_spec E fl path w hg hf
  rw [h] at e
  cases e
  obtain ⟨_, i, s0, h1, h2, h3, h4⟩ := hr
  refine ⟨l, i, hl, by rw [h1]; simp [plus], ?_⟩
  rcases h4 with h | ⟨l', pre, post, d', dn, c, a1, a2, a3, a4, a5, a6, rfl, rfl, a8⟩ | h
  · exact .inl h
  · exact .inr (.inl ⟨a8, l', pre, d', dn, c, a1, a2, a3, a4, a5, rfl, a6⟩)
  · exact .inr (.inr h)

/-! ## When nobody interferes -/

theorem trustedPath_split {fs : FS} {me : Nat} {d : Nat} {a b : List Name} {j : Nat} (h : TrustedPath fs me d (a ++ b) j) :
    ∃ i, TrustedPath fs me d a i ∧ TrustedPath fs me i b j := by
  induction a generalizing d with
  | nil => exact ⟨d, .done d, h⟩
  | cons x xs ih =>
    cases h with
    | step _ _ _ b' i m _ nb na h1 h2 h3 h4 h5 h6 h7 =>
      obtain ⟨k, hk, hk'⟩ := ih h7
      exact ⟨k, .step _ _ _ b' i m _ nb na h1 h2 h3 h4 h5 h6 hk, hk'⟩

theorem trustedPath_resolves {fs : FS} {me : Nat} {d : Nat} {cs : List Name} {j : Nat} (h : TrustedPath fs me d cs j) : ∃ n, Resolves fs d cs n j := by
  induction h with
  | done d => exact ⟨0, .here d⟩
  | step d c cs b i m j nb na _ _ h3 _ _ _ _ ih =>
    obtain ⟨n, hn⟩ := ih
    exact ⟨m + n, resolves_append h3 hn⟩

theorem split_last {α : Type} (l : List α) (h : l ≠ []) : ∃ a x, l = a ++ [x] := ⟨l.dropLast, l.getLast h, (List.dropLast_concat_getLast h).symm⟩

theorem all_of_dropWhile (s : List UInt8) (h : s.dropWhile (· == 47) = []) : ∀ x ∈ s, x = 47 := by
  induction s with
  | nil => simp
  | cons a s ih =>
    rw [List.dropWhile_cons] at h
    split at h
    · rename_i ha
      intro x hx
      rcases List.mem_cons.mp hx with rfl | hx
      · simpa using ha
      · exact ih h x hx
    · cases h

theorem comps_path_ne_nil (path : List UInt8) (h : path ≠ []) (hl : path.getLast? ≠ some 47) : comps path ≠ [] := by
  cases path with
  | nil => exact absurd rfl h
  | cons c s =>
    by_cases hc : c = 47
    · subst hc
      rw [comps_abs]
      cases hd : s.dropWhile (· == 47) with
      | nil =>
        exfalso
        apply hl
        have hall : ∀ x ∈ s, x = 47 := all_of_dropWhile s hd
        cases s with
        | nil => rfl
        | cons a t =>
          rw [List.getLast?_cons_cons, List.getLast?_eq_some_getLast (by simp)]
          rw [hall _ (List.getLast_mem _)]
      | cons c' s' => exact comps_ne_nil c' s' (dropWhile_head _ _ _ hd)
    · exact comps_ne_nil c s hc

/-- The loop for the last name, which exists. -/
theorem loop_last (E : Env) (hQ : Quiet E) (fl : Flags) (hx : ¬ (fl.creat = true ∧ fl.excl = true)) (w : World) (hg : Good w) (cur d : Nat) (hcur : w.fds cur = some d)
    (rest : List UInt8) (c : Name) (hc : comps rest = [c]) (hh : rest.head? ≠ some 47) (hl : rest.getLast? ≠ some 47)
    (b : Nat) (nb : Inode) (hb : entry w.fs d c = .ok b) (hnb : w.fs.node b = some nb) (m i : Nat) (hm : m ≤ 40) (hr : Resolves w.fs d [c] m i) (na : Inode)
    (hna : w.fs.node i = some na) (ho : Openable na fl.wr) :
    ∃ w', loop E fl w cur rest = some (if refused E (statOf nb) (statOf na) then .error ENOLINK else .ok (w.next, some (statOf na).size, fl.trunc), w') ∧
      w'.fs = w.fs ∧ Good w' ∧ w'.fds = if refused E (statOf nb) (statOf na) then without w.fds cur else plus (without w.fds cur) w.next i := by
  cases rest with
  | nil => simp [comps, pieces] at hc
  | cons x s =>
    have hx47 : x ≠ 47 := by simpa using hh
    rcases path_cases x s hx47 hl with ⟨h1, h2, h3, h4⟩ | ⟨c', s', _, hc', hl', h3, _⟩
    · rw [h3] at hc
      cases hc
      obtain ⟨w', e, hfs, hG, _, hfds⟩ := leaf_quiet E hQ w hg cur d hcur (x :: s) h3 fl hx 3 b nb hb hnb m i hm hr na hna ho
      refine ⟨w', ?_, hfs, hG, hfds⟩
      rw [loop.eq_def]
      simp only
      split
      · rw [h2, e]
        by_cases hrf : refused E (statOf nb) (statOf na) = true
        · simp [hrf]
        · simp [hrf]
      · rename_i hd; rw [h1] at hd; cases hd
    · rw [h3] at hc
      simp only [List.cons.injEq] at hc
      exact absurd hc.2 (comps_ne_nil c' s' hc')

/-- The loop for the last name, which does not exist and is to be created. -/
theorem loop_create (E : Env) (hQ : Quiet E) (fl : Flags) (hx : fl.creat = true) (w : World) (hg : Good w) (cur d : Nat) (hcur : w.fds cur = some d)
    (rest : List UInt8) (c : Name) (hc : comps rest = [c]) (hh : rest.head? ≠ some 47) (hl : rest.getLast? ≠ some 47)
    (dn : Inode) (hdn : w.fs.node d = some dn) (hb : entry w.fs d c = .error ENOENT) (hfr : w.fs.node w.fs.fresh = none) :
    ∃ w', loop E fl w cur rest = some (.ok (w.next, none, false), w') ∧ w'.fs = created w.fs d dn c E.euid E.egid ∧ Good w' ∧
      w'.fds = plus (without w.fds cur) w.next w.fs.fresh := by
  cases rest with
  | nil => simp [comps, pieces] at hc
  | cons x s =>
    have hx47 : x ≠ 47 := by simpa using hh
    rcases path_cases x s hx47 hl with ⟨h1, h2, h3, h4⟩ | ⟨c', s', _, hc', hl', h3, _⟩
    · rw [h3] at hc
      cases hc
      obtain ⟨w', e, hfs, hG, hfds⟩ := leaf_quiet_create E hQ w hg cur d hcur (x :: s) h4 fl hx 3 dn hdn hb hfr
      refine ⟨w', ?_, hfs, hG, hfds⟩
      rw [loop.eq_def]
      simp only
      split
      · rw [h2, e]; simp
      · rename_i hd; rw [h1] at hd; cases hd
    · rw [h3] at hc
      simp only [List.cons.injEq] at hc
      exact absurd hc.2 (comps_ne_nil c' s' hc')

/-- The loop for a component that is refused. -/
theorem loop_refused (E : Env) (hQ : Quiet E) (fl : Flags) (hx : ¬ (fl.creat = true ∧ fl.excl = true)) (w : World) (hg : Good w) (cur d : Nat) (hcur : w.fds cur = some d)
    (hroot : NotLink w.fs w.fs.root)
    (rest : List UInt8) (c : Name) (cs : List Name) (hc : comps rest = c :: cs) (hh : rest.head? ≠ some 47) (hl : rest.getLast? ≠ some 47)
    (b : Nat) (nb : Inode) (hb : entry w.fs d c = .ok b) (hnb : w.fs.node b = some nb) (m i : Nat) (hm : m ≤ 40) (hr : Resolves w.fs d [c] m i) (na : Inode)
    (hna : w.fs.node i = some na) (ho : cs = [] → Openable na fl.wr) (hrf : refused E (statOf nb) (statOf na) = true) :
    ∃ w', loop E fl w cur rest = some (.error ENOLINK, w') ∧ w'.fs = w.fs ∧ w'.fds = without w.fds cur := by
  cases rest with
  | nil => simp [comps, pieces] at hc
  | cons x s =>
    have hx47 : x ≠ 47 := by simpa using hh
    rcases path_cases x s hx47 hl with ⟨h1, h2, h3, h4⟩ | ⟨c', s', h1, hc', hl', h3, h4, _⟩
    · rw [h3] at hc
      cases hc
      obtain ⟨w', e, h1', _, h2'⟩ := loop_last E hQ fl hx w hg cur d hcur (x :: s) _ h3 hh hl b nb hb hnb m i hm hr na hna (ho rfl)
      rw [if_pos hrf] at e h2'
      exact ⟨w', e, h1', h2'⟩
    · rw [h3] at hc
      simp only [List.cons.injEq] at hc
      obtain ⟨rfl, rfl⟩ := hc
      obtain ⟨w', e, h1', _, _, h2'⟩ := inner_quiet E hQ w hg cur d hcur _ h4 b nb hb hnb m i hm hr na hna (resolves_notLink hroot hr (notLink_of_entry hb))
      rw [if_pos hrf] at e h2'
      refine ⟨w', ?_, h1', h2'⟩
      rw [loop.eq_def]
      simp only
      split
      · rename_i hd; rw [h1] at hd; cases hd
      · rw [e]

/-- Where the path starts. -/
def start (E : Env) (fs : FS) (path : List UInt8) : Nat := if path.head? = some 47 then fs.root else E.cwd

/-- When nobody interferes: a path along which the ownership rule holds is opened, as the object that the path denotes; the file is emptied with `O_TRUNC` and
otherwise nothing changes. -/
theorem C50_trusted_path_opens (E : Env) (hQ : Quiet E) (he : E.euid ≤ 1) (w : World) (hg : Good w) (path : List UInt8) (fl : Flags) (hf : fl.trunc = true → fl.wr = true)
    (hp : path ≠ []) (hl : path.getLast? ≠ some 47) (hroot : NotLink w.fs w.fs.root) (j : Nat) (n : Inode)
    (hT : TrustedPath w.fs E.euid (start E w.fs path) (comps path) j) (hn : w.fs.node j = some n) (ho : Openable n fl.wr) (hx : ¬ (fl.creat = true ∧ fl.excl = true)) :
    ∃ fd w' k, safeOpen E w path fl = some (.ok fd, w') ∧ w'.fds = plus w.fds fd j ∧ Resolves w.fs (start E w.fs path) (comps path) k j ∧
      w'.fs = if fl.trunc then truncated w.fs j else w.fs := by
  obtain ⟨k, hk⟩ := trustedPath_resolves hT
  obtain ⟨w1, rest, hfs1, hg1, hfd1, hwo1, hh1, hc1, hl1, e⟩ := safeOpen_start E hQ w hg path fl hf hp
  obtain ⟨pre, c, hpc⟩ := split_last (comps path) (comps_path_ne_nil path hp hl)
  rw [hpc] at hT
  obtain ⟨d, hT1, hT2⟩ := trustedPath_split hT
  rw [← pUid_eq E he] at hT1 hT2
  obtain ⟨w2, fd2, rest2, e2, hfs2, hg2, hfd2, hwo2, hc2, hh2, hl2, _⟩ := loop_prefix E hQ fl hroot hT1 rest [c] w1 w.next hfs1 hh1 (hl1 hl) (by rw [hc1, hpc]) (by simp) hg1 hfd1
  cases hT2 with
  | step _ _ _ b i m _ nb na h1 h2 h3 h4 h5 h6 h7 =>
    cases h7
    rw [hn] at h5
    cases h5
    rw [← hfs2] at h1 h2 h3 hn
    obtain ⟨w3, e3, hfs3, hg3, hfd3⟩ := loop_last E hQ fl hx w2 hg2 fd2 d hfd2 rest2 c hc2 hh2 hl2 b nb h1 h2 m j h4 h3 n hn ho
    have hrf : refused E (statOf nb) (statOf n) = false := by
      cases hb : refused E (statOf nb) (statOf n) with
      | false => rfl
      | true => exact absurd h6 ((refused_iff E nb n).mp hb)
    simp only [hrf, Bool.false_eq_true, if_false] at e3 hfd3
    rw [hwo2, hwo1] at hfd3
    rw [e2, e3] at e
    simp only [Option.bind_some] at e
    have hfi : w3.fds w2.next = some j := by rw [hfd3]; simp [plus]
    unfold finish at e
    by_cases ht : fl.trunc = true
    · simp only [ht, if_true] at e ⊢
      by_cases hz : (statOf n).size ≠ 0
      · rw [if_pos hz, ftruncate_quiet E hQ w3 _ j hfi] at e
        refine ⟨w2.next, _, k, e, hfd3, hk, ?_⟩
        show truncated w3.fs j = _
        rw [hfs3, hfs2]
      · rw [if_neg hz] at e
        refine ⟨w2.next, _, k, e, hfd3, hk, ?_⟩
        rw [hfs3, hfs2]
        refine (truncated_empty _ _ n (by rw [← hfs2]; exact hn) ?_).symm
        obtain ⟨kd, u, g⟩ := n
        cases kd with
        | reg data =>
          simp only [statOf, Decidable.not_not] at hz
          rw [List.length_eq_zero_iff.mp hz]
        | dir ent => simp [statOf] at hz
        | link t => exact absurd ho (by simp [Openable])
    · simp only [Bool.not_eq_true] at ht
      simp only [ht, Bool.false_eq_true, if_false] at e ⊢
      exact ⟨w2.next, _, k, e, hfd3, hk, by rw [hfs3, hfs2]⟩

/-- When nobody interferes: if the ownership rule fails for some component (and holds for those before it), the call fails with `ENOLINK` and changes nothing. -/
theorem C50_untrusted_component_refused (E : Env) (hQ : Quiet E) (he : E.euid ≤ 1) (w : World) (hg : Good w) (path : List UInt8) (fl : Flags) (hf : fl.trunc = true → fl.wr = true)
    (hp : path ≠ []) (hl : path.getLast? ≠ some 47) (hroot : NotLink w.fs w.fs.root) (pre : List Name) (c : Name) (post : List Name) (hc : comps path = pre ++ c :: post)
    (d : Nat) (hT : TrustedPath w.fs E.euid (start E w.fs path) pre d)
    (b : Nat) (nb : Inode) (hb : entry w.fs d c = .ok b) (hnb : w.fs.node b = some nb) (m i : Nat) (hm : m ≤ 40) (hr : Resolves w.fs d [c] m i) (na : Inode)
    (hna : w.fs.node i = some na) (hu : ¬ Trusted E.euid nb na) (ho : post = [] → Openable na fl.wr) (hx : ¬ (fl.creat = true ∧ fl.excl = true)) :
    ∃ w', safeOpen E w path fl = some (.error ENOLINK, w') ∧ w'.fds = w.fds ∧ w'.fs = w.fs := by
  obtain ⟨w1, rest, hfs1, hg1, hfd1, hwo1, hh1, hc1, hl1, e⟩ := safeOpen_start E hQ w hg path fl hf hp
  rw [← pUid_eq E he] at hT hu
  obtain ⟨w2, fd2, rest2, e2, hfs2, hg2, hfd2, hwo2, hc2, hh2, hl2, _⟩ := loop_prefix E hQ fl hroot hT rest (c :: post) w1 w.next hfs1 hh1 (hl1 hl) (by rw [hc1, hc]) (by simp) hg1 hfd1
  rw [← hfs2] at hroot hb hnb hr hna
  obtain ⟨w3, e3, hfs3, hfd3⟩ := loop_refused E hQ fl hx w2 hg2 fd2 d hfd2 hroot rest2 c post hc2 hh2 hl2 b nb hb hnb m i hm hr na hna ho ((refused_iff E nb na).mpr hu)
  rw [e2, e3] at e
  exact ⟨w3, e, by rw [hfd3, hwo2, hwo1], by rw [hfs3, hfs2]⟩

/-- When nobody interferes: with `O_CREAT`, a missing file under a path along which the ownership rule holds is created, empty, owned by the user, and opened. -/
theorem C50_missing_file_created (E : Env) (hQ : Quiet E) (he : E.euid ≤ 1) (w : World) (hg : Good w) (path : List UInt8) (fl : Flags) (hf : fl.trunc = true → fl.wr = true)
    (hp : path ≠ []) (hl : path.getLast? ≠ some 47) (hroot : NotLink w.fs w.fs.root) (pre : List Name) (c : Name) (hc : comps path = pre ++ [c])
    (d : Nat) (hT : TrustedPath w.fs E.euid (start E w.fs path) pre d) (dn : Inode) (hdn : w.fs.node d = some dn) (hb : entry w.fs d c = .error ENOENT)
    (hfr : w.fs.node w.fs.fresh = none) (hx : fl.creat = true) :
    ∃ fd w', safeOpen E w path fl = some (.ok fd, w') ∧ w'.fds = plus w.fds fd w.fs.fresh ∧ w'.fs = created w.fs d dn c E.euid E.egid := by
  obtain ⟨w1, rest, hfs1, hg1, hfd1, hwo1, hh1, hc1, hl1, e⟩ := safeOpen_start E hQ w hg path fl hf hp
  rw [← pUid_eq E he] at hT
  obtain ⟨w2, fd2, rest2, e2, hfs2, hg2, hfd2, hwo2, hc2, hh2, hl2, _⟩ := loop_prefix E hQ fl hroot hT rest [c] w1 w.next hfs1 hh1 (hl1 hl) (by rw [hc1, hc]) (by simp) hg1 hfd1
  rw [← hfs2] at hdn hb hfr
  obtain ⟨w3, e3, hfs3, _, hfd3⟩ := loop_create E hQ fl hx w2 hg2 fd2 d hfd2 rest2 c hc2 hh2 hl2 dn hdn hb hfr
  rw [e2, e3] at e
  exact ⟨w2.next, w3, e, by rw [hfd3, hwo2, hwo1, hfs2], by rw [hfs3, hfs2]⟩

/-- The loop for a component that is missing (and not to be created), or exists and must not. -/
theorem loop_missing (E : Env) (hQ : Quiet E) (fl : Flags) (w : World) (cur d : Nat) (hcur : w.fds cur = some d)
    (rest : List UInt8) (c : Name) (cs : List Name) (hc : comps rest = c :: cs) (hh : rest.head? ≠ some 47) (hl : rest.getLast? ≠ some 47)
    (e : Nat) (hb : (statAt w.fs d c = .error e ∧ (cs ≠ [] ∨ e ≠ ENOENT ∨ fl.creat = false)) ∨
      (∃ st, statAt w.fs d c = .ok st ∧ cs = [] ∧ fl.creat = true ∧ fl.excl = true ∧ e = EEXIST)) :
    ∃ w', loop E fl w cur rest = some (.error e, w') ∧ w'.fs = w.fs ∧ w'.fds = without w.fds cur := by
  cases rest with
  | nil => simp [comps, pieces] at hc
  | cons x s =>
    have hx47 : x ≠ 47 := by simpa using hh
    refine ⟨{ after w w.fs w.fs with fds := without w.fds cur }, ?_, rfl, rfl⟩
    rcases path_cases x s hx47 hl with ⟨h1, h2, h3, h4⟩ | ⟨c', s', h1, hc', hl', h3, h4, _⟩
    · rw [h3] at hc
      cases hc
      rw [loop.eq_def]
      simp only
      split
      · have hle : leafError fl (statAt w.fs d (x :: s)) = some e := by
          rcases hb with ⟨hb, h⟩ | ⟨st, hb, _, h5, h6, h7⟩
          · rw [hb]
            simp only [leafError]
            rw [if_pos]
            rcases h with h | h | h
            · exact absurd rfl h
            · exact .inl h
            · exact .inr h
          · rw [hb]; simp [leafError, h5, h6, h7]
        have : leaf E cur (splitName (x :: s)).1 (x :: s) fl 3 w = some (.error e, { after w w.fs w.fs with fds := without w.fds cur }) := by
          rw [h2, leaf.eq_def]
          simp only [fstatat_quiet E hQ w cur d _ hcur, Option.bind_eq_bind, Option.bind_some, hle]
          exact fail_spec _ cur d e hcur
        rw [this]
      · rename_i hd; rw [h1] at hd; cases hd
    · rw [h3] at hc
      simp only [List.cons.injEq] at hc
      obtain ⟨rfl, rfl⟩ := hc
      have hb' : statAt w.fs d (splitName (x :: s)).1 = .error e := by
        rcases hb with ⟨hb, _⟩ | ⟨_, _, h, _⟩
        · exact hb
        · exact absurd h (comps_ne_nil c' s' hc')
      rw [loop.eq_def]
      simp only
      split
      · rename_i hd; rw [h1] at hd; cases hd
      · have : inner E w cur (splitName (x :: s)).1 = some (.error e, { after w w.fs w.fs with fds := without w.fds cur }) := by
          unfold inner
          simp only [fstatat_quiet E hQ w cur d _ hcur, hb', Option.bind_eq_bind, Option.bind_some]
          exact fail_spec _ cur d e hcur
        rw [this]

/-- When nobody interferes: a missing component, or a missing file without `O_CREAT`, is reported as `ENOENT`, and nothing changes. -/
theorem C50_missing_component_reported (E : Env) (hQ : Quiet E) (he : E.euid ≤ 1) (w : World) (hg : Good w) (path : List UInt8) (fl : Flags) (hf : fl.trunc = true → fl.wr = true)
    (hp : path ≠ []) (hl : path.getLast? ≠ some 47) (hroot : NotLink w.fs w.fs.root) (pre : List Name) (c : Name) (post : List Name) (hc : comps path = pre ++ c :: post)
    (d : Nat) (hT : TrustedPath w.fs E.euid (start E w.fs path) pre d) (hb : entry w.fs d c = .error ENOENT) (hx : post ≠ [] ∨ fl.creat = false) :
    ∃ w', safeOpen E w path fl = some (.error ENOENT, w') ∧ w'.fds = w.fds ∧ w'.fs = w.fs := by
  obtain ⟨w1, rest, hfs1, hg1, hfd1, hwo1, hh1, hc1, hl1, e⟩ := safeOpen_start E hQ w hg path fl hf hp
  rw [← pUid_eq E he] at hT
  obtain ⟨w2, fd2, rest2, e2, hfs2, hg2, hfd2, hwo2, hc2, hh2, hl2, _⟩ := loop_prefix E hQ fl hroot hT rest (c :: post) w1 w.next hfs1 hh1 (hl1 hl) (by rw [hc1, hc]) (by simp) hg1 hfd1
  rw [← hfs2] at hb
  obtain ⟨w3, e3, hfs3, hfd3⟩ := loop_missing E hQ fl w2 fd2 d hfd2 rest2 c post hc2 hh2 hl2 ENOENT (.inl ⟨by simp [statAt, hb], by
    rcases hx with h | h
    · exact .inl h
    · exact .inr (.inr h)⟩)
  rw [e2, e3] at e
  exact ⟨w3, e, by rw [hfd3, hwo2, hwo1], by rw [hfs3, hfs2]⟩

/-- When nobody interferes: with `O_CREAT | O_EXCL`, a name that exists (even as a dangling link) is reported as `EEXIST`, and nothing changes. -/
theorem C50_exclusive_creation_refuses_existing (E : Env) (hQ : Quiet E) (he : E.euid ≤ 1) (w : World) (hg : Good w) (path : List UInt8) (fl : Flags) (hf : fl.trunc = true → fl.wr = true)
    (hp : path ≠ []) (hl : path.getLast? ≠ some 47) (hroot : NotLink w.fs w.fs.root) (pre : List Name) (c : Name) (hc : comps path = pre ++ [c])
    (d : Nat) (hT : TrustedPath w.fs E.euid (start E w.fs path) pre d) (b : Nat) (nb : Inode) (hb : entry w.fs d c = .ok b) (hnb : w.fs.node b = some nb)
    (hx : fl.creat = true) (hex : fl.excl = true) :
    ∃ w', safeOpen E w path fl = some (.error EEXIST, w') ∧ w'.fds = w.fds ∧ w'.fs = w.fs := by
  obtain ⟨w1, rest, hfs1, hg1, hfd1, hwo1, hh1, hc1, hl1, e⟩ := safeOpen_start E hQ w hg path fl hf hp
  rw [← pUid_eq E he] at hT
  obtain ⟨w2, fd2, rest2, e2, hfs2, hg2, hfd2, hwo2, hc2, hh2, hl2, _⟩ := loop_prefix E hQ fl hroot hT rest [c] w1 w.next hfs1 hh1 (hl1 hl) (by rw [hc1, hc]) (by simp) hg1 hfd1
  rw [← hfs2] at hb hnb
  obtain ⟨w3, e3, hfs3, hfd3⟩ := loop_missing E hQ fl w2 fd2 d hfd2 rest2 c [] hc2 hh2 hl2 EEXIST (.inr ⟨statOf nb, by simp [statAt, hb, statNode, hnb], rfl, hx, hex, rfl⟩)
  rw [e2, e3] at e
  exact ⟨w3, e, by rw [hfd3, hwo2, hwo1], by rw [hfs3, hfs2]⟩

/-! ## Concrete filesystems: the theorems' hypotheses are met, and where the property fails -/

/-- `/t` is a directory (inode 1, owned by uid 5), with `f` (inode 2, root's), `l` (inode 3: uid 5's link to `/s`), `m` (inode 5: root's link to `l`). `/s` (inode 4) is root's. -/
def demo : FS where
  node := fun i => match i with
    | 0 => some ⟨.dir [([116], 1), ([115], 4)], 0, 0⟩
    | 1 => some ⟨.dir [([102], 2), ([108], 3), ([109], 5)], 5, 5⟩
    | 2 => some ⟨.reg [1, 2], 0, 0⟩
    | 3 => some ⟨.link [47, 115], 5, 5⟩
    | 4 => some ⟨.reg [9], 0, 0⟩
    | 5 => some ⟨.link [108], 0, 0⟩
    | _ => none
  root := 0
  fresh := 6

/-- The descriptors 0-2 are in use. -/
def world (fs : FS) : World := { fs := fs, fds := fun f => if f < 3 then some 0 else none, next := 3, log := [] }

/-- A process of user `u` that nobody disturbs. -/
def alone (u : Nat) : Env := { adv := fun _ fs => fs, inj := fun _ => none, euid := u, egid := 0, cwd := 0 }

theorem alone_quiet (u : Nat) : Quiet (alone u) := ⟨fun _ _ => rfl, fun _ => rfl⟩

theorem world_good (fs : FS) : Good (world fs) := by
  intro f hf
  simp only [world] at *
  rw [if_neg (by omega)]

theorem demo_root : NotLink demo demo.root := by
  rintro t ⟨u, g, h⟩
  simp [demo, world] at h

def rd : Flags := ⟨false, false, false, false⟩
def wrTrunc : Flags := ⟨true, false, false, true⟩
def wrCreat : Flags := ⟨true, true, false, false⟩
def wrCreatExcl : Flags := ⟨true, true, true, false⟩

/-- `/t/f` is trusted: the directory `/t` is what was opened, and `f` is root's. -/
theorem demo_f (u : Nat) : TrustedPath demo u 0 [[116], [102]] 2 :=
  .step 0 [116] [[102]] 1 1 0 2 ⟨.dir [([102], 2), ([108], 3), ([109], 5)], 5, 5⟩ ⟨.dir [([102], 2), ([108], 3), ([109], 5)], 5, 5⟩ rfl rfl
    (.name 0 [116] [] 1 0 1 rfl (by rintro t ⟨u, g, h⟩; simp [demo, world] at h) (.here 1)) (by omega) rfl (.inr (.inr ⟨rfl, rfl⟩))
    (.step 1 [102] [] 2 2 0 2 ⟨.reg [1, 2], 0, 0⟩ ⟨.reg [1, 2], 0, 0⟩ rfl rfl
      (.name 1 [102] [] 2 0 2 rfl (by rintro t ⟨u, g, h⟩; simp [demo, world] at h) (.here 2)) (by omega) rfl (.inl rfl) (.done 2))

/-- `/t` is trusted. -/
theorem demo_t (u : Nat) : TrustedPath demo u 0 [[116]] 1 := (trustedPath_split (a := [[116]]) (b := [[102]]) (demo_f u)).elim fun i h => by
  have := h.1
  exact .step 0 [116] [] 1 1 0 1 ⟨.dir [([102], 2), ([108], 3), ([109], 5)], 5, 5⟩ ⟨.dir [([102], 2), ([108], 3), ([109], 5)], 5, 5⟩ rfl rfl
    (.name 0 [116] [] 1 0 1 rfl (by rintro t ⟨u, g, h⟩; simp [demo, world] at h) (.here 1)) (by omega) rfl (.inr (.inr ⟨rfl, rfl⟩)) (.done 1)

example : ∃ fd w' k, safeOpen (alone 0) (world demo) [47, 116, 47, 102] wrTrunc = some (.ok fd, w') ∧ w'.fds = plus (world demo).fds fd 2 ∧ Resolves demo 0 [[116], [102]] k 2 ∧
    w'.fs = truncated demo 2 :=
  C50_trusted_path_opens (alone 0) (alone_quiet 0) (by decide) (world demo) (world_good demo) [47, 116, 47, 102] wrTrunc (by decide) (by decide) (by decide) demo_root 2 _
    (demo_f 0) rfl (by simp [Openable]) (by decide)

/-- uid 5's link to root's file is refused. -/
example : ∃ w', safeOpen (alone 0) (world demo) [47, 116, 47, 108] wrTrunc = some (.error ENOLINK, w') ∧ w'.fds = (world demo).fds ∧ w'.fs = demo :=
  C50_untrusted_component_refused (alone 0) (alone_quiet 0) (by decide) (world demo) (world_good demo) [47, 116, 47, 108] wrTrunc (by decide) (by decide) (by decide) demo_root
    [[116]] [108] [] (by decide) 1 (demo_t 0) 3 ⟨.link [47, 115], 5, 5⟩ rfl rfl 1 4 (by decide)
    (.link 1 [108] [] 3 0 4 [47, 115] rfl ⟨5, 5, rfl⟩ (.name 0 [115] [] 4 0 4 rfl (by rintro t ⟨u, g, h⟩; simp [demo, world] at h) (.here 4))) ⟨.reg [9], 0, 0⟩ rfl
    (by simp [Trusted, alone]) (by simp [Openable]) (by decide)

example : ∃ fd w', safeOpen (alone 0) (world demo) [47, 116, 47, 110] wrCreat = some (.ok fd, w') ∧ w'.fds = plus (world demo).fds fd 6 ∧
    w'.fs = created demo 1 ⟨.dir [([102], 2), ([108], 3), ([109], 5)], 5, 5⟩ [110] 0 0 :=
  C50_missing_file_created (alone 0) (alone_quiet 0) (by decide) (world demo) (world_good demo) [47, 116, 47, 110] wrCreat (by decide) (by decide) (by decide) demo_root
    [[116]] [110] (by decide) 1 (demo_t 0) _ rfl rfl rfl rfl

example : ∃ w', safeOpen (alone 0) (world demo) [47, 116, 47, 110] rd = some (.error ENOENT, w') ∧ w'.fds = (world demo).fds ∧ w'.fs = demo :=
  C50_missing_component_reported (alone 0) (alone_quiet 0) (by decide) (world demo) (world_good demo) [47, 116, 47, 110] rd (by decide) (by decide) (by decide) demo_root
    [[116]] [110] [] (by decide) 1 (demo_t 0) rfl (.inr rfl)

example : ∃ w', safeOpen (alone 0) (world demo) [47, 116, 47, 108] wrCreatExcl = some (.error EEXIST, w') ∧ w'.fds = (world demo).fds ∧ w'.fs = demo :=
  C50_exclusive_creation_refuses_existing (alone 0) (alone_quiet 0) (by decide) (world demo) (world_good demo) [47, 116, 47, 108] wrCreatExcl (by decide) (by decide) (by decide) demo_root
    [[116]] [108] (by decide) 1 (demo_t 0) 3 _ rfl rfl rfl rfl

/-- The rule is only applied to the first of several links: root's link `/t/m` to uid 5's link `/t/l` to root's `/s` is followed and `/s` emptied. -/
theorem C50_nested_link_negated : ∃ (fs : FS) (b : Nat) (nb : Inode) (j : Nat) (na : Inode), entry fs 1 [108] = .ok b ∧ fs.node b = some nb ∧ Resolves fs 1 [[108]] 1 j ∧ fs.node j = some na ∧
    ¬ Trusted 0 nb na ∧ (∃ u g, fs.node 5 = some ⟨.link [108], u, g⟩) ∧ entry fs 1 [109] = .ok 5 ∧
    ∃ fd w', safeOpen (alone 0) (world fs) [47, 116, 47, 109] wrTrunc = some (.ok fd, w') ∧ w'.fs = truncated fs j := by
  have hr : Resolves demo 1 [[108]] 1 4 :=
    .link 1 [108] [] 3 0 4 [47, 115] rfl ⟨5, 5, rfl⟩ (.name 0 [115] [] 4 0 4 rfl (by rintro t ⟨u, g, h⟩; simp [demo, world] at h) (.here 4))
  refine ⟨demo, 3, ⟨.link [47, 115], 5, 5⟩, 4, ⟨.reg [9], 0, 0⟩, rfl, rfl, hr, rfl, by simp [Trusted], ⟨0, 0, rfl⟩, rfl, ?_⟩
  have hm : Resolves demo 1 [[109]] 2 4 := .link 1 [109] [] 5 1 4 [108] rfl ⟨0, 0, rfl⟩ hr
  have hT : TrustedPath demo 0 0 [[116], [109]] 4 :=
    .step 0 [116] [[109]] 1 1 0 4 ⟨.dir [([102], 2), ([108], 3), ([109], 5)], 5, 5⟩ ⟨.dir [([102], 2), ([108], 3), ([109], 5)], 5, 5⟩ rfl rfl
      (.name 0 [116] [] 1 0 1 rfl (by rintro t ⟨u, g, h⟩; simp [demo, world] at h) (.here 1)) (by omega) rfl (.inr (.inr ⟨rfl, rfl⟩))
      (.step 1 [109] [] 5 4 2 4 ⟨.link [108], 0, 0⟩ ⟨.reg [9], 0, 0⟩ rfl rfl hm (by omega) rfl (.inl rfl) (.done 4))
  obtain ⟨fd, w', k, h1, _, _, h2⟩ := C50_trusted_path_opens (alone 0) (alone_quiet 0) (by decide) (world demo) (world_good demo) [47, 116, 47, 109] wrTrunc (by decide) (by decide)
    (by decide) demo_root 4 _ hT rfl (by simp [Openable]) (by decide)
  exact ⟨fd, w', h1, h2⟩

/-- The error, or the object the descriptor denotes. -/
def opened (r : Option (Except Nat Nat × World)) : Option (Nat ⊕ Option Nat) :=
  r.map fun p => match p.1 with
    | .ok fd => .inr (p.2.fds fd)
    | .error e => .inl e

/-- `demo` after user 5 has, in the directory `/t`, which user 5 owns, moved `l` over `f`. -/
def demo2 : FS := { demo with node := fun i => if i = 1 then some ⟨.dir [([102], 3), ([109], 5)], 5, 5⟩ else demo.node i }

/-- A process of root's, while user 5 moves `l` over `f` just before the sixth system call. -/
def disturbed : Env := { alone 0 with adv := fun n fs => if n = 5 then demo2 else fs }

/-- The check and the open are two system calls: user 5, changing only the user's own directory `/t` between them, gets root to open `/t/f` as user 5's link to root's file `/s`. -/
theorem C50_race_negated :
    (∀ i, i ≠ 1 → demo2.node i = demo.node i) ∧ (∃ ent, demo.node 1 = some ⟨.dir ent, 5, 5⟩) ∧ (∃ ent, demo2.node 1 = some ⟨.dir ent, 5, 5⟩) ∧
    (∀ n fs, disturbed.adv n fs = fs ∨ disturbed.adv n fs = demo2) ∧ disturbed.euid = 0 ∧
    entry demo2 1 [102] = .ok 3 ∧ (∃ nb na, demo2.node 3 = some nb ∧ IsLink demo2 3 [47, 115] ∧ demo2.node 4 = some na ∧ ¬ Trusted 0 nb na) ∧
    opened (safeOpen disturbed (world demo) [47, 116, 47, 102] rd) = some (.inr (some 4)) := by
  refine ⟨?_, ⟨_, rfl⟩, ⟨_, rfl⟩, ?_, rfl, rfl, ⟨_, _, rfl, ⟨5, 5, rfl⟩, rfl, by simp [Trusted]⟩, by decide +kernel⟩
  · intro i hi; simp [demo2, hi]
  · intro n fs; simp only [disturbed]; split
    · exact .inr rfl
    · exact .inl rfl

/-- `/m`: user 1000's link to root's file `/s`. `/d`: user 1's link to it. -/
def demo3 : FS where
  node := fun i => match i with
    | 0 => some ⟨.dir [([109], 1), ([100], 2), ([115], 3)], 0, 0⟩
    | 1 => some ⟨.link [115], 1000, 1000⟩
    | 2 => some ⟨.link [115], 1, 1⟩
    | 3 => some ⟨.reg [9], 0, 0⟩
    | _ => none
  root := 0
  fresh := 4

/-- The user id is stored in a `bool`: user 1000's own link is refused (though trusted by the rule), and user 1's is followed (though not). -/
theorem C50_uid_wrong_negated :
    (entry demo3 0 [109] = .ok 1 ∧ (∃ nb na, demo3.node 1 = some nb ∧ demo3.node 3 = some na ∧ Resolves demo3 0 [[109]] 1 3 ∧ Trusted 1000 nb na) ∧
      opened (safeOpen (alone 1000) (world demo3) [47, 109] rd) = some (.inl ENOLINK)) ∧
    (entry demo3 0 [100] = .ok 2 ∧ (∃ nb na, demo3.node 2 = some nb ∧ demo3.node 3 = some na ∧ Resolves demo3 0 [[100]] 1 3 ∧ ¬ Trusted 1000 nb na) ∧
      opened (safeOpen (alone 1000) (world demo3) [47, 100] rd) = some (.inr (some 3))) := by
  have h : Resolves demo3 0 [[115]] 0 3 := .name 0 [115] [] 3 0 3 rfl (by rintro t ⟨u, g, h⟩; simp [demo3] at h) (.here 3)
  exact ⟨⟨rfl, ⟨_, _, rfl, rfl, .link 0 [109] [] 1 0 3 [115] rfl ⟨1000, 1000, rfl⟩ h, by simp [Trusted]⟩, by decide +kernel⟩,
    rfl, ⟨_, _, rfl, rfl, .link 0 [100] [] 2 0 3 [115] rfl ⟨1, 1, rfl⟩ h, by simp [Trusted]⟩, by decide +kernel⟩

/-- For the path `/` the flags are ignored: asked to create it exclusively for writing, the call succeeds with the root directory. -/
theorem C50_root_ignores_flags_negated : opened (safeOpen (alone 0) (world demo) [47] wrCreatExcl) = some (.inr (some demo.root)) := by decide +kernel

/-- The hypotheses of the first four theorems are met in that race too. -/
example : ∃ fd w', safeOpen disturbed (world demo) [47, 116, 47, 102] rd = some (.ok fd, w') := by
  have h := C50_race_negated.2.2.2.2.2.2.2
  cases e : safeOpen disturbed (world demo) [47, 116, 47, 102] rd with
  | none => rw [e] at h; simp [opened] at h
  | some p =>
    obtain ⟨r, w'⟩ := p
    cases r with
    | ok fd => exact ⟨fd, w', rfl⟩
    | error x => rw [e] at h; simp [opened] at h

example : Good (world demo) := world_good demo

end SafeOpen
