import Verif.Lemmas.SafeOpenRun
/-! # Runs of safe_open when nobody interferes -/
namespace SafeOpen
open SafeOpenSpec



theorem resolves_notLink {fs : FS} (hroot : NotLink fs fs.root) {d : Nat} {cs : List Name} {n j : Nat} (h : Resolves fs d cs n j) : NotLink fs d → NotLink fs j := by
  induction h with
  | here d => exact id
  | name d c cs i n j h1 h2 h3 ih => intro _; exact ih h2
  | link d c cs i n j t h1 h2 h3 ih => intro hd; apply ih; split <;> assumption

theorem notLink_of_entry {fs : FS} {d : Nat} {c : Name} {i : Nat} (h : entry fs d c = .ok i) : NotLink fs d := by
  rintro t ⟨u, g, hd⟩
  simp [entry, hd] at h

theorem call_quiet {α : Type} (E : Env) (hQ : Quiet E) (w : World) (op : FS → Option (Except Nat α × FS)) (r : Except Nat α) (post : FS) (h : op w.fs = some (r, post)) :
    call E w op = some (r, after w w.fs post) := by
  simp [call, hQ.1, hQ.2, h, after]

theorem fstatat_quiet (E : Env) (hQ : Quiet E) (w : World) (fd d : Nat) (name : Name) (h : w.fds fd = some d) :
    fstatat E w fd name = some (statAt w.fs d name, after w w.fs w.fs) := by
  simp only [fstatat, h, Option.bind_eq_bind, Option.bind_some]
  exact call_quiet E hQ w _ _ _ rfl

theorem fstat_quiet (E : Env) (hQ : Quiet E) (w : World) (fd i : Nat) (h : w.fds fd = some i) :
    fstat E w fd = some (statNode w.fs i, after w w.fs w.fs) := by
  simp only [fstat, h, Option.bind_eq_bind, Option.bind_some]
  exact call_quiet E hQ w _ _ _ rfl

theorem ftruncate_quiet (E : Env) (hQ : Quiet E) (w : World) (fd i : Nat) (h : w.fds fd = some i) :
    ftruncate E w fd = some (.ok (), after w w.fs (truncated w.fs i)) := by
  simp only [ftruncate, h, Option.bind_eq_bind, Option.bind_some]
  exact call_quiet E hQ w _ _ _ rfl

theorem openat_quiet (E : Env) (hQ : Quiet E) (w : World) (fd d : Nat) (path : List UInt8) (fl : Flags) (h : w.fds fd = some d) (hc : fl.creat = false) (ht : fl.trunc = false)
    (m i : Nat) (hm : m ≤ 40) (hr : Resolves w.fs d (comps path) m i) (n : Inode) (hn : w.fs.node i = some n) (ho : Openable n fl.wr) :
    openat E w fd path fl = some (.ok w.next, (addFd (after w w.fs w.fs) i).2) := by
  have hres : resolve w.fs maxLinks d (comps path) = .ok i := (resolve_ok _ _ _ _ _).2 ⟨m, hm, hr⟩
  have hop : openExisting w.fs i fl = (.ok i, w.fs) := by
    unfold openExisting
    rw [hn]
    obtain ⟨k, u, g⟩ := n
    cases k with
    | reg data => simp [ht]
    | dir ent => simp only [Openable] at ho; simp [ho]
    | link t => exact ho.elim
  simp only [openat, h, Option.bind_eq_bind, Option.bind_some]
  rw [call_quiet E hQ w (kOpenat E.euid E.egid d path fl) (.ok i) w.fs (by simp [kOpenat, hc, hres, hop])]
  rfl

theorem refused_iff (E : Env) (nb na : Inode) : refused E (statOf nb) (statOf na) = true ↔ ¬ Trusted (pUid E) nb na := by
  unfold refused statOf Trusted
  simp only [Bool.and_eq_true, bne_iff_ne, ne_eq, Bool.or_eq_true, not_or, not_and]
  constructor
  · rintro ⟨⟨a, b⟩, c⟩
    refine ⟨a, b, fun h => ?_⟩
    rcases c with c | c
    · exact absurd h c
    · exact c
  · rintro ⟨a, b, c⟩
    refine ⟨⟨a, b⟩, ?_⟩
    by_cases h : nb.uid = na.uid
    · exact .inr (c h)
    · exact .inl h

/-- The check after opening existing component `i` as descriptor `w.next`, having seen `nb`. -/
theorem check_quiet (E : Env) (hQ : Quiet E) (w : World) (hg : Good w) (cur d : Nat) (hcur : w.fds cur = some d) (nb na : Inode) (i : Nat) (hna : w.fs.node i = some na) :
    ∃ w', ((close ((addFd (after (after w w.fs w.fs) w.fs w.fs) i).2) cur).bind fun w' => checkAfter E w' w.next (.ok (statOf nb))) =
        some (if refused E (statOf nb) (statOf na) then .error ENOLINK else .ok (w.next, some (statOf na).size), w') ∧ w'.fs = w.fs ∧ Good w' ∧ w.next ≤ w'.next ∧
      w'.fds = if refused E (statOf nb) (statOf na) then without w.fds cur else plus (without w.fds cur) w.next i := by
  have hne : cur ≠ w.next := by intro h; rw [h, hg _ (Nat.le_refl _)] at hcur; cases hcur
  have h1 : (addFd (after (after w w.fs w.fs) w.fs w.fs) i).2.fds cur = some d := by simp [addFd, after, hne, hcur]
  rw [close_spec _ cur d h1]
  simp only [Option.bind_some, checkAfter]
  have hfd : (without (addFd (after (after w w.fs w.fs) w.fs w.fs) i).2.fds cur) w.next = some i := by
    simp [without, addFd, after, Ne.symm hne]
  rw [fstat_quiet E hQ _ w.next i hfd]
  have hfs : ∀ t, ({ (addFd (after (after w w.fs w.fs) w.fs w.fs) i).2 with fds := t } : World).fs = w.fs := fun _ => rfl
  have hst : statNode w.fs i = .ok (statOf na) := by simp [statNode, hna]
  rw [hfs, hst]
  simp only [Option.bind_eq_bind, Option.bind_some]
  by_cases hr : refused E (statOf nb) (statOf na) = true
  · simp only [hr, if_true]
    rw [fail_spec _ w.next i ENOLINK hfd]
    refine ⟨_, rfl, rfl, ?_, ?_, ?_⟩
    · intro f hf
      simp only [after, addFd] at hf
      simp only [after, addFd, without]
      have h1 : f ≠ w.next := by omega
      simp only [h1, if_false]
      split
      · rfl
      · exact hg f (by omega)
    · simp [after, addFd]
    · funext f
      simp only [after, addFd, without]
      by_cases hf : f = w.next
      · simp only [hf, if_true]; rw [if_neg (Ne.symm hne), hg _ (Nat.le_refl _)]
      · simp only [hf, if_false]
  · simp only [hr, if_false]
    refine ⟨_, rfl, rfl, ?_, ?_, ?_⟩
    · intro f hf
      simp only [after, addFd] at hf
      simp only [after, addFd, without]
      have h1 : f ≠ w.next := by omega
      simp only [h1, if_false]
      split
      · rfl
      · exact hg f (by omega)
    · simp [after, addFd]
    · funext f
      simp only [after, addFd, without, plus]
      by_cases hf : f = w.next
      · simp only [hf, if_true]; rw [if_neg (Ne.symm hne)]; simp [plus]
      · simp [plus, without, hf]

theorem inner_quiet (E : Env) (hQ : Quiet E) (w : World) (hg : Good w) (cur d : Nat) (hcur : w.fds cur = some d) (name : Name) (hname : comps name = [name])
    (b : Nat) (nb : Inode) (hb : entry w.fs d name = .ok b) (hnb : w.fs.node b = some nb) (m i : Nat) (hm : m ≤ 40) (hr : Resolves w.fs d [name] m i) (na : Inode)
    (hna : w.fs.node i = some na) (hnl : NotLink w.fs i) :
    ∃ w', inner E w cur name =
        some (if refused E (statOf nb) (statOf na) then .error ENOLINK else .ok (w.next, some (statOf na).size), w') ∧ w'.fs = w.fs ∧ Good w' ∧ w.next ≤ w'.next ∧
      w'.fds = if refused E (statOf nb) (statOf na) then without w.fds cur else plus (without w.fds cur) w.next i := by
  obtain ⟨w', e, h⟩ := check_quiet E hQ w hg cur d hcur nb na i hna
  refine ⟨w', ?_, h⟩
  have hst : statAt w.fs d name = .ok (statOf nb) := by simp [statAt, hb, statNode, hnb]
  have hopen := openat_quiet E hQ (after w w.fs w.fs) cur d name ⟨false, false, false, false⟩ hcur rfl rfl m i hm (by rw [hname]; exact hr) na hna (by
    unfold Openable
    split
    · trivial
    · rfl
    · rename_i t ht
      exact hnl t ⟨na.uid, na.gid, by rw [hna]; cases na; simp at ht; subst ht; rfl⟩)
  simp only [inner, fstatat_quiet E hQ w cur d name hcur, hst, Option.bind_eq_bind, Option.bind_some, hopen]
  exact e

theorem leaf_quiet (E : Env) (hQ : Quiet E) (w : World) (hg : Good w) (cur d : Nat) (hcur : w.fds cur = some d) (name : Name) (hname : comps name = [name]) (fl : Flags)
    (hfl : ¬ (fl.creat = true ∧ fl.excl = true)) (k : Nat)
    (b : Nat) (nb : Inode) (hb : entry w.fs d name = .ok b) (hnb : w.fs.node b = some nb) (m i : Nat) (hm : m ≤ 40) (hr : Resolves w.fs d [name] m i) (na : Inode)
    (hna : w.fs.node i = some na) (ho : Openable na fl.wr) :
    ∃ w', leaf E cur name name fl k w =
        some (if refused E (statOf nb) (statOf na) then .error ENOLINK else .ok (w.next, some (statOf na).size), w') ∧ w'.fs = w.fs ∧ Good w' ∧ w.next ≤ w'.next ∧
      w'.fds = if refused E (statOf nb) (statOf na) then without w.fds cur else plus (without w.fds cur) w.next i := by
  obtain ⟨w', e, h⟩ := check_quiet E hQ w hg cur d hcur nb na i hna
  refine ⟨w', ?_, h⟩
  have hst : statAt w.fs d name = .ok (statOf nb) := by simp [statAt, hb, statNode, hnb]
  have hopen := openat_quiet E hQ (after w w.fs w.fs) cur d name (leafFlags fl true) hcur rfl rfl m i hm (by rw [hname]; exact hr) na hna ho
  have hle : leafError fl (.ok (statOf nb)) = none := by simp only [leafError]; rw [if_neg hfl]
  rw [leaf.eq_def]
  simp only [fstatat_quiet E hQ w cur d name hcur, hst, Option.bind_eq_bind, Option.bind_some, hle]
  have : (Except.ok (statOf nb) : Except Nat Stat).isOk = true := rfl
  rw [this]
  simp only [hopen, Option.bind_some]
  exact e

/-- A missing last component is created. -/
theorem leaf_quiet_create (E : Env) (hQ : Quiet E) (w : World) (hg : Good w) (cur d : Nat) (hcur : w.fds cur = some d) (name : Name) (h47 : (47 : UInt8) ∉ name) (fl : Flags)
    (hfl : fl.creat = true) (k : Nat) (dn : Inode) (hdn : w.fs.node d = some dn) (hb : entry w.fs d name = .error ENOENT) (hfr : w.fs.node w.fs.fresh = none) :
    ∃ w', leaf E cur name name fl k w = some (.ok (w.next, none), w') ∧ w'.fs = created w.fs d dn name E.euid E.egid ∧ Good w' ∧
      w'.fds = plus (without w.fds cur) w.next w.fs.fresh := by
  have hne : cur ≠ w.next := by intro h; rw [h, hg _ (Nat.le_refl _)] at hcur; cases hcur
  have hst : statAt w.fs d name = .error ENOENT := by simp [statAt, hb]
  have hle : leafError fl (.error ENOENT) = none := by simp [leafError, hfl]
  have hk : kOpenat E.euid E.egid d name (leafFlags fl false) w.fs = some (.ok w.fs.fresh, created w.fs d dn name E.euid E.egid) := by
    unfold kOpenat
    rw [if_pos (by simp [leafFlags, hfl]), if_pos (by simp [leafFlags]), if_neg (by simpa using h47), hb]
    simp only [ne_eq, not_true_eq_false, if_false, hdn, hfr]
  rw [leaf.eq_def]
  simp only [fstatat_quiet E hQ w cur d name hcur, hst, Option.bind_eq_bind, Option.bind_some, hle]
  have : (Except.error ENOENT : Except Nat Stat).isOk = false := rfl
  rw [this]
  have hcur' : (after w w.fs w.fs).fds cur = some d := hcur
  simp only [openat, hcur', Option.bind_eq_bind, Option.bind_some]
  rw [call_quiet E hQ (after w w.fs w.fs) _ _ _ hk]
  simp only [Option.bind_some]
  have h1 : (addFd (after (after w w.fs w.fs) (after w w.fs w.fs).fs (created w.fs d dn name E.euid E.egid)) w.fs.fresh).2.fds cur = some d := by simp [addFd, after, hne, hcur]
  rw [close_spec _ cur d h1]
  simp only [Option.bind_some, checkAfter]
  refine ⟨_, rfl, rfl, ?_, ?_⟩
  · intro f hf
    simp only [after, addFd] at hf
    simp only [after, addFd, without]
    have h1 : f ≠ w.next := by omega
    simp only [h1, if_false]
    split
    · rfl
    · exact hg f (by omega)
  · funext f
    simp only [after, addFd, without, plus]
    by_cases hf : f = w.next
    · simp only [hf, if_true]; rw [if_neg (Ne.symm hne)]
    · simp [hf]

theorem comps_ne_nil (c : UInt8) (s : List UInt8) (hc : c ≠ 47) : comps (c :: s) ≠ [] := by
  rw [comps, pieces_split c s hc]; simp

/-- A path that does not end in a slash: name, then the rest. -/
theorem path_cases (c : UInt8) (s : List UInt8) (hc : c ≠ 47) (hl : (c :: s).getLast? ≠ some 47) :
    ((splitName (c :: s)).2.dropWhile (· == 47) = [] ∧ (splitName (c :: s)).1 = c :: s ∧ comps (c :: s) = [c :: s] ∧ (47 : UInt8) ∉ c :: s) ∨
    ∃ c' s', (splitName (c :: s)).2.dropWhile (· == 47) = c' :: s' ∧ c' ≠ 47 ∧ (c' :: s').getLast? ≠ some 47 ∧ comps (c :: s) = (splitName (c :: s)).1 :: comps (c' :: s') ∧
      comps (splitName (c :: s)).1 = [(splitName (c :: s)).1] ∧ (c' :: s').length < (c :: s).length := by
  cases hd : (splitName (c :: s)).2.dropWhile (· == 47) with
  | nil =>
    left
    rcases comps_leaf c s hc hd with ⟨h1, h2, h3⟩ | ⟨h1, h3⟩
    · exact ⟨rfl, h2, by rw [h1, h2], h3⟩
    · exfalso
      have e : c :: s = (splitName (c :: s)).1 ++ (splitName (c :: s)).2 := by simp [splitName, List.takeWhile_append_dropWhile]
      by_cases ht : (splitName (c :: s)).2 = []
      · rw [ht, List.append_nil] at e
        have hn : (47 : UInt8) ∉ (splitName (c :: s)).1 := by
          simp only [splitName, List.mem_cons, not_or]
          exact ⟨Ne.symm hc, takeWhile_no47 s⟩
        rw [← e] at hn; exact hn h3
      · apply hl
        rw [e, List.getLast?_append, getLast_all47 _ hd ht]; rfl
  | cons c' s' =>
    right
    obtain ⟨h1, h2, h3, h4⟩ := comps_inner c s hc c' s' hd
    refine ⟨c', s', rfl, h4, ?_, h1, h2, ?_⟩
    · have e : c :: s = (splitName (c :: s)).1 ++ (splitName (c :: s)).2 := by simp [splitName, List.takeWhile_append_dropWhile]
      have ht : (splitName (c :: s)).2 ≠ [] := by intro h'; rw [h'] at hd; simp at hd
      have : (c :: s).getLast? = (c' :: s').getLast? := by
        conv => lhs; rw [e]
        rw [List.getLast?_append, ← hd, getLast_dropWhile _ (by rw [hd]; simp)]
        cases hh : (splitName (c :: s)).2.getLast? with
        | none => exact absurd (List.getLast?_eq_none_iff.mp hh) ht
        | some x => rfl
      rw [← this]; exact hl
    · have := splitName_length c s
      rw [hd] at this; exact this

/-- The loop passes over trusted components. -/
theorem loop_prefix (E : Env) (hQ : Quiet E) (fl : Flags) {fs : FS} (hroot : NotLink fs fs.root) {d : Nat} {pre : List Name} {i : Nat} (h : TrustedPath fs (pUid E) d pre i) :
    ∀ (rest : List UInt8) (post : List Name) (w : World) (cur : Nat), w.fs = fs → rest.head? ≠ some 47 → rest.getLast? ≠ some 47 → comps rest = pre ++ post → post ≠ [] →
      Good w → w.fds cur = some d →
      ∃ w' fd rest', loop E fl w cur rest = loop E fl w' fd rest' ∧ w'.fs = fs ∧ Good w' ∧ w'.fds fd = some i ∧ without w'.fds fd = without w.fds cur ∧ comps rest' = post ∧
        rest'.head? ≠ some 47 ∧ rest'.getLast? ≠ some 47 ∧ w.next ≤ w'.next := by
  induction h with
  | done d => intro rest post w cur hfs hh hl hc _ hg hcur; exact ⟨w, cur, rest, rfl, hfs, hg, hcur, rfl, hc, hh, hl, Nat.le_refl _⟩
  | step d c cs b i m j nb na hb hnb hr hm hna ht _ ih =>
    intro rest post w cur hfs hh hl hc hpost hg hcur
    cases rest with
    | nil => simp [comps, pieces] at hc
    | cons x s =>
      have hx : x ≠ 47 := by simpa using hh
      rcases path_cases x s hx hl with ⟨h1, h2, h3, h4⟩ | ⟨c', s', h1, h2, h3, h4, h5, h6⟩
      · rw [h3] at hc
        simp only [List.cons_append, List.cons.injEq] at hc
        have := List.append_eq_nil_iff.mp hc.2.symm
        exact absurd this.2 hpost
      · rw [h4] at hc
        simp only [List.cons_append, List.cons.injEq] at hc
        obtain ⟨hcn, hct⟩ := hc
        have hnl : NotLink w.fs i := by rw [hfs]; exact resolves_notLink hroot hr (notLink_of_entry hb)
        obtain ⟨w1, e1, hf1, g1, hnx, hfd1⟩ := inner_quiet E hQ w hg cur d hcur (splitName (x :: s)).1 h5 b nb (by rw [hfs, hcn]; exact hb) (by rw [hfs]; exact hnb) m i hm
          (by rw [hfs, hcn]; exact hr) na (by rw [hfs]; exact hna) hnl
        have hrf : refused E (statOf nb) (statOf na) = false := by
          rw [← Bool.not_eq_true, refused_iff]; simpa using ht
        rw [hrf] at e1 hfd1
        simp only [Bool.false_eq_true, if_false] at e1 hfd1
        obtain ⟨w2, fd2, rest2, e2, hf2, g2, hi2, hw2, hc2, hh2, hl2, hn2⟩ := ih (c' :: s') post w1 w.next (by rw [hf1, hfs]) (by simpa using h2) h3 hct hpost g1 (by rw [hfd1]; simp [plus])
        refine ⟨w2, fd2, rest2, ?_, hf2, g2, hi2, ?_, hc2, hh2, hl2, by omega⟩
        · rw [← e2, loop.eq_def]
          simp only
          split
          · rename_i hd; rw [h1] at hd; cases hd
          · rename_i c2 s2 hd
            rw [h1] at hd; cases hd
            rw [e1]
        · rw [hw2, hfd1]
          funext f
          simp only [without, plus]
          by_cases hf : f = w.next
          · simp only [hf, if_true]
            split
            · rfl
            · exact (hg _ (Nat.le_refl _)).symm
          · simp [hf]

/-- The start of the call: the first directory. -/
theorem safeOpen_start (E : Env) (hQ : Quiet E) (w : World) (hg : Good w) (path : List UInt8) (fl : Flags) (hf : fl.trunc = true → fl.wr = true) (hp : path ≠ []) :
    ∃ w1 rest, w1.fs = w.fs ∧ Good w1 ∧ w1.fds w.next = some (if path.head? = some 47 then w.fs.root else E.cwd) ∧ without w1.fds w.next = w.fds ∧ rest.head? ≠ some 47 ∧
      comps rest = comps path ∧ (path.getLast? ≠ some 47 → rest.getLast? ≠ some 47) ∧
      safeOpen E w path fl = (loop E fl w1 w.next rest).bind fun r => (match r with
        | (.error e, w) => some (.error e, w)
        | (.ok (fd, size, trunc), w) => finish E w fd size trunc) := by
  cases path with
  | nil => exact absurd rfl hp
  | cons c s =>
    have h0 := call_quiet E hQ w (fun fs => some ((.ok (if (c == 47) = true then fs.root else E.cwd) : Except Nat Nat), fs)) _ _ rfl
    refine ⟨(addFd (after w w.fs w.fs) (if (c == 47) = true then w.fs.root else E.cwd)).2, if c = 47 then s.dropWhile (· == 47) else c :: s, rfl, ?_, by simp [addFd, after], ?_, ?_, ?_, ?_, ?_⟩
    · intro f hf
      simp only [addFd, after] at hf ⊢
      have h1 : f ≠ w.next := by omega
      simp only [h1, if_false]; exact hg f (by omega)
    · funext f
      simp only [without, addFd, after]
      by_cases hf : f = w.next
      · simp only [hf, if_true]; exact (hg _ (Nat.le_refl _)).symm
      · simp only [hf, if_false]
    · split
      · intro h
        cases hd : s.dropWhile (· == 47) with
        | nil => rw [hd] at h; simp at h
        | cons a t => rw [hd] at h; simp at h; exact dropWhile_head _ _ _ hd h
      · simpa using ‹_›
    · split
      · rename_i h; subst h; exact (comps_abs s).symm
      · rfl
    · split
      · intro hl
        by_cases he : s.dropWhile (· == 47) = []
        · rw [he]; simp
        · rw [getLast_dropWhile s he]
          cases s with
          | nil => simp at he
          | cons b s => rw [List.getLast?_cons_cons] at hl; exact hl
      · exact id
    · unfold safeOpen
      rw [if_neg (by
        simp only [Bool.and_eq_true, Bool.not_eq_true', not_and, Bool.not_eq_false]
        exact hf)]
      simp only [openFirst, h0, Option.bind_eq_bind, Option.bind_some]
      rfl

theorem truncated_empty (fs : FS) (i : Nat) (n : Inode) (h : fs.node i = some n) (h2 : n.kind = .reg []) : truncated fs i = fs := by
  unfold truncated
  rw [h]
  simp only [setNode]
  cases fs with
  | mk node root fresh =>
    simp only [FS.mk.injEq, and_true]
    funext j
    split
    · rename_i hj; subst hj; rw [show node j = some n from h, ← h2]
    · rfl

end SafeOpen
