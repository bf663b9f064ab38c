import Verif.Lemmas.SafeOpen
/-! # Runs of safe_open in a changing filesystem -/
namespace SafeOpen
open SafeOpenSpec


def after (w : World) (pre post : FS) : World := { w with fs := post, log := w.log ++ [(pre, post)] }

theorem call_spec {α : Type} (E : Env) (w : World) (op : FS → Option (Except Nat α × FS)) (h : ∀ fs, op fs ≠ none) :
    ∃ r pre post, call E w op = some (r, after w pre post) ∧ ((∃ e, r = .error e ∧ post = pre) ∨ op pre = some (r, post)) := by
  unfold call
  cases hi : E.inj w.log.length with
  | some e => exact ⟨.error e, _, _, rfl, .inl ⟨e, rfl, rfl⟩⟩
  | none =>
    cases ho : op (E.adv w.log.length w.fs) with
    | none => exact absurd ho (h _)
    | some r => exact ⟨r.1, E.adv w.log.length w.fs, r.2, by simp [ho, after], .inr ho⟩

theorem fstatat_spec (E : Env) (w : World) (fd d : Nat) (name : Name) (h : w.fds fd = some d) :
    ∃ r pre, fstatat E w fd name = some (r, after w pre pre) ∧
      ∀ st, r = .ok st → ∃ b nb, entry pre d name = .ok b ∧ pre.node b = some nb ∧ st = statOf nb := by
  unfold fstatat
  rw [h]
  obtain ⟨r, pre, post, e, hr⟩ := call_spec E w (fun fs => some (statAt fs d name, fs)) (by simp)
  rcases hr with ⟨e', rfl, rfl⟩ | hr
  · exact ⟨_, _, by simpa using e, by simp⟩
  · simp only [Option.some.injEq, Prod.mk.injEq] at hr
    obtain ⟨hr, rfl⟩ := hr
    refine ⟨r, pre, by simpa using e, ?_⟩
    rintro st rfl
    unfold statAt statNode at hr
    split at hr
    · cases hr
    · rename_i i hi
      split at hr
      · rename_i n hn; cases hr; exact ⟨i, n, hi, hn, rfl⟩
      · cases hr

theorem fstat_spec (E : Env) (w : World) (fd i : Nat) (h : w.fds fd = some i) :
    ∃ r pre, fstat E w fd = some (r, after w pre pre) ∧ ∀ st, r = .ok st → ∃ na, pre.node i = some na ∧ st = statOf na := by
  unfold fstat
  rw [h]
  obtain ⟨r, pre, post, e, hr⟩ := call_spec E w (fun fs => some (statNode fs i, fs)) (by simp)
  rcases hr with ⟨e', rfl, rfl⟩ | hr
  · exact ⟨_, _, by simpa using e, by simp⟩
  · simp only [Option.some.injEq, Prod.mk.injEq] at hr
    obtain ⟨hr, rfl⟩ := hr
    refine ⟨r, pre, by simpa using e, ?_⟩
    rintro st rfl
    unfold statNode at hr
    split at hr
    · rename_i n hn; cases hr; exact ⟨n, hn, rfl⟩
    · cases hr

theorem openExisting_ok {fs : FS} {i : Nat} {fl : Flags} (ht : fl.trunc = false) :
    ∃ r, openExisting fs i fl = (r, fs) ∧ ∀ j, r = .ok j → j = i := by
  unfold openExisting
  split
  · exact ⟨_, by rw [ht]; rfl, fun j h => by cases h; rfl⟩
  · split
    · exact ⟨_, rfl, fun j h => by cases h⟩
    · exact ⟨_, rfl, fun j h => by cases h; rfl⟩
  · exact ⟨_, rfl, fun j h => by cases h⟩

/-- The object that `openat` opened: an existing one, or a new file. -/
def Opens (pre post : FS) (uid gid d : Nat) (path : List UInt8) (fl : Flags) (i : Nat) : Prop :=
  (fl.creat = false ∧ post = pre ∧ ∃ m, Resolves pre d (comps path) m i) ∨
  (fl.creat = true ∧ (47 : UInt8) ∉ path ∧ entry pre d path = .error ENOENT ∧ pre.node pre.fresh = none ∧ i = pre.fresh ∧
    ∃ dn, pre.node d = some dn ∧ post = created pre d dn path uid gid)

theorem openat_spec (E : Env) (w : World) (fd d : Nat) (path : List UInt8) (fl : Flags) (h : w.fds fd = some d) (hc : fl.creat = true → fl.excl = true)
    (ht : fl.trunc = false) :
    (∃ e pre, openat E w fd path fl = some (.error e, after w pre pre)) ∨
    (∃ i pre post, openat E w fd path fl = some (.ok w.next, (addFd (after w pre post) i).2) ∧ Opens pre post E.euid E.egid d path fl i) := by
  unfold openat
  rw [h]
  obtain ⟨r, pre, post, e, hr⟩ := call_spec E w (kOpenat E.euid E.egid d path fl) (by
    intro fs hn
    unfold kOpenat at hn
    split at hn
    · rename_i hcr
      rw [if_pos (hc hcr)] at hn
      split at hn
      · cases hn
      · split at hn
        · cases hn
        · split at hn
          · cases hn
          · split at hn <;> cases hn
    · split at hn <;> cases hn)
  simp only [Option.bind_eq_bind, Option.bind_some, e]
  rcases hr with ⟨e', rfl, rfl⟩ | hr
  · exact .inl ⟨e', _, rfl⟩
  · cases r with
    | error e' =>
      left
      refine ⟨e', pre, ?_⟩
      have : post = pre := by
        unfold kOpenat at hr
        split at hr
        · rename_i hcr
          rw [if_pos (hc hcr)] at hr
          split at hr
          · cases hr; rfl
          · split at hr
            · cases hr; rfl
            · split at hr
              · cases hr; rfl
              · split at hr
                · cases hr
                · cases hr; rfl
        · split at hr
          · cases hr; rfl
          · obtain ⟨r', he, _⟩ := openExisting_ok (fs := pre) (i := by assumption) ht
            rw [he] at hr; cases hr; rfl
      rw [this]
    | ok i =>
      right
      refine ⟨i, pre, post, rfl, ?_⟩
      unfold kOpenat at hr
      split at hr
      · rename_i hcr
        rw [if_pos (hc hcr)] at hr
        split at hr
        · cases hr
        · rename_i h47
          split at hr
          · cases hr
          · rename_i e' he
            split at hr
            · cases hr
            · rename_i hE
              split at hr
              · rename_i dn hd hf
                cases hr
                refine .inr ⟨hcr, by simpa using h47, ?_, hf, rfl, dn, hd, rfl⟩
                rw [he, Decidable.not_not.mp hE]
              · cases hr
      · rename_i hcr
        split at hr
        · cases hr
        · rename_i j hj
          obtain ⟨r', he, hj'⟩ := openExisting_ok (fs := pre) (i := j) ht
          rw [he] at hr
          cases hr
          have := hj' i rfl
          subst this
          obtain ⟨m, _, hm⟩ := (resolve_ok pre maxLinks d (comps path) i).1 hj
          exact .inl ⟨by simpa using hcr, rfl, m, hm⟩

theorem ftruncate_spec (E : Env) (w : World) (fd i : Nat) (h : w.fds fd = some i) :
    (∃ e pre, ftruncate E w fd = some (.error e, after w pre pre)) ∨ (∃ pre, ftruncate E w fd = some (.ok (), after w pre (truncated pre i))) := by
  unfold ftruncate
  rw [h]
  obtain ⟨r, pre, post, e, hr⟩ := call_spec E w (fun fs => some (.ok (), truncated fs i)) (by simp)
  rcases hr with ⟨e', rfl, rfl⟩ | hr
  · exact .inl ⟨e', _, by simpa using e⟩
  · cases hr; exact .inr ⟨pre, by simpa using e⟩

theorem close_spec (w : World) (fd i : Nat) (h : w.fds fd = some i) : close w fd = some { w with fds := without w.fds fd } := by
  unfold close; rw [h]; rfl

theorem fail_spec (w : World) (fd i e : Nat) (h : w.fds fd = some i) : fail w fd e = some (.error e, { w with fds := without w.fds fd }) := by
  unfold fail; rw [close_spec w fd i h]; rfl

theorem trusted_of_not_refused (E : Env) (nb na : Inode) (h : refused E (statOf nb) (statOf na) = false) : Trusted (pUid E) nb na := by
  unfold refused statOf at h
  unfold Trusted
  simp only [Bool.and_eq_false_iff, bne_eq_false_iff_eq, Bool.or_eq_false_iff] at h
  rcases h with (h | h) | h
  · exact .inl h
  · exact .inr (.inl h)
  · exact .inr (.inr h)

theorem walked_mono {log : List (FS × FS)} {me uid gid t d : Nat} {cs : List Name} {j : Nat} (h : Walked log me uid gid t d cs j) :
    ∀ l, Walked (log ++ l) me uid gid t d cs j := by
  have hp : ∀ {k : Nat} {s : FS × FS} (l : List (FS × FS)), log[k]? = some s → (log ++ l)[k]? = some s := by
    intro k s l hk
    obtain ⟨hlt, _⟩ := List.getElem?_eq_some_iff.mp hk
    rw [List.getElem?_append_left hlt, hk]
  induction h with
  | done t d => intro l; exact .done _ _
  | step t d c slash cs t1 t2 t3 b i m j s1 s2 s3 nb na h1 h2 h3 h4 h5 h6 h7 h8 h9 h10 h11 h12 _ ih =>
    intro l
    exact .step t d c slash cs t1 t2 t3 b i m j s1 s2 s3 nb na h1 h2 h3 (hp l h4) (hp l h5) (hp l h6) h7 h8 h9 h10 h11 h12 (ih l)
  | create t d c t2 pre post dn h1 h2 h3 h4 h5 h6 => intro l; exact .create _ _ _ t2 pre post dn h1 (hp l h2) h3 h4 h5 h6

theorem walked_later {log : List (FS × FS)} {me uid gid t d : Nat} {cs : List Name} {j : Nat} (h : Walked log me uid gid t d cs j) (t' : Nat) (ht : t' ≤ t) :
    Walked log me uid gid t' d cs j := by
  cases h with
  | done => exact .done _ _
  | step _ _ c slash cs t1 t2 t3 b i m j s1 s2 s3 nb na h1 => exact .step _ _ c slash cs t1 t2 t3 b i m j s1 s2 s3 nb na (Nat.le_trans ht h1) ‹_› ‹_› ‹_› ‹_› ‹_› ‹_› ‹_› ‹_› ‹_› ‹_› ‹_› ‹_›
  | create _ _ c t2 pre post dn h1 => exact .create _ _ _ t2 pre post dn (Nat.le_trans ht h1) ‹_› ‹_› ‹_› ‹_› ‹_›

/-- What a run may do to the filesystem: nothing, except that a successful run ends with creating the last component `c` of the path as file `i`. -/
def Effect (E : Env) (cr : Prop) (l : List (FS × FS)) (c : Name) (i : Nat) (size : Option Nat) : Prop :=
  (size.isSome ∧ Only l) ∨
  (size = none ∧ ∃ l' pre post d dn, l = l' ++ [(pre, post)] ∧ Only l' ∧ entry pre d c = .error ENOENT ∧ pre.node d = some dn ∧ pre.node pre.fresh = none ∧
    post = created pre d dn c E.euid E.egid ∧ i = pre.fresh ∧ cr)

/-- The outcome of handling one component. -/
def Outcome (E : Env) (cr : Prop) (w : World) (cur d : Nat) (cs : List Name) (r : Except Nat (Nat × Option Nat)) (w' : World) : Prop :=
  Good w' ∧ w.next ≤ w'.next ∧ ∃ l, w'.log = w.log ++ l ∧
    match r with
    | .error _ => w'.fds = without w.fds cur ∧ Only l
    | .ok (fd, size) => w.next ≤ fd ∧ ∃ i, w'.fds = plus (without w.fds cur) fd i ∧ Walked w'.log (pUid E) E.euid E.egid w.log.length d cs i ∧
        (∀ c slash, cs = c :: slash → Effect E cr l c i size ∧ (size = none → slash = []))

theorem good_fail {w : World} (h : Good w) (pre : FS) (cur : Nat) : Good { after w pre pre with fds := without w.fds cur } := by
  intro f hf
  simp only [without]
  split
  · rfl
  · exact h f hf

theorem only_nil : Only [] := by intro p hp; cases hp
theorem only_append {a b : List (FS × FS)} (ha : Only a) (hb : Only b) : Only (a ++ b) := by
  intro p hp
  rcases List.mem_append.mp hp with h | h
  · exact ha p h
  · exact hb p h
theorem only_one (pre : FS) : Only [(pre, pre)] := by
  intro p hp
  rw [List.mem_singleton] at hp
  rw [hp]

/-- Component `c` of directory `d` was seen, opened as `i`, seen again and trusted, between times `t` and `t'`. -/
def Seen (log : List (FS × FS)) (me t t' d : Nat) (c : Name) (slash : List Name) (i : Nat) : Prop :=
  ∃ t1 t2 t3 b m, ∃ s1 s2 s3 : FS × FS, ∃ nb na, t ≤ t1 ∧ t1 < t2 ∧ t2 < t3 ∧ log[t1]? = some s1 ∧ log[t2]? = some s2 ∧ log[t3]? = some s3 ∧
      entry s1.1 d c = .ok b ∧ s1.1.node b = some nb ∧ Resolves s2.1 d (c :: slash) m i ∧ s3.1.node i = some na ∧ Trusted me nb na ∧ t3 < t'

/-- After the last `openat` of a component that existed: the check, and what follows from it. -/
theorem finish_component (E : Env) (cr : Prop) (w : World) (hg : Good w) (cur d : Nat) (hcur : w.fds cur = some d) (c : Name) (slash : List Name) (hs : slash = [] ∨ slash = [[46]])
    (p1 : FS) (b : Nat) (nb : Inode) (hb : entry p1 d c = .ok b) (hnb : p1.node b = some nb)
    (p2 : FS) (i m : Nat) (hr : Resolves p2 d (c :: slash) m i) :
    ∃ r w', (do
        let w ← close ((addFd (after (after w p1 p1) p2 p2) i).2) cur
        checkAfter E w w.next.pred (.ok (statOf nb))) = some (r, w') ∧ Outcome E cr w cur d (c :: slash) r w' ∧ ∀ fd size, r = .ok (fd, size) → size.isSome ∧ w'.fds = plus (without w.fds cur) fd i ∧
        Seen w'.log (pUid E) w.log.length w'.log.length d c slash i := by
  have hne : cur ≠ w.next := by intro h; rw [h, hg _ (Nat.le_refl _)] at hcur; cases hcur
  have h1 : (addFd (after (after w p1 p1) p2 p2) i).2.fds cur = some d := by simp [addFd, after, hne, hcur]
  simp only [close_spec _ cur d h1, Option.bind_eq_bind, Option.bind_some]
  have hfd : (without (addFd (after (after w p1 p1) p2 p2) i).2.fds cur) w.next = some i := by
    simp [without, addFd, after, Ne.symm hne]
  obtain ⟨r, p3, e3, h3⟩ := fstat_spec E { (addFd (after (after w p1 p1) p2 p2) i).2 with fds := without (addFd (after (after w p1 p1) p2 p2) i).2.fds cur } w.next i hfd
  have hlog : ∀ (ww : World), ww.log = w.log ++ [(p1, p1), (p2, p2), (p3, p3)] → ww.log = w.log ++ [(p1, p1), (p2, p2), (p3, p3)] := fun _ h => h
  have honly : Only [(p1, p1), (p2, p2), (p3, p3)] := only_append (a := [(p1, p1)]) (only_one p1) (only_append (a := [(p2, p2)]) (only_one p2) (only_one p3))
  have hnx : (addFd (after (after w p1 p1) p2 p2) i).2.next.pred = w.next := by simp [addFd, after]
  have herr : ∀ e, ∃ w', fail (after { (addFd (after (after w p1 p1) p2 p2) i).2 with fds := without (addFd (after (after w p1 p1) p2 p2) i).2.fds cur } p3 p3) w.next e
      = some (.error e, w') ∧ Outcome E cr w cur d (c :: slash) (.error e) w' := by
    intro e
    refine ⟨_, fail_spec _ w.next i e hfd, ?_⟩
    refine ⟨?_, ?_, [(p1, p1), (p2, p2), (p3, p3)], by simp [after, addFd], ?_, honly⟩
    · intro f hf
      simp only [after, addFd] at hf
      simp only [after, addFd, without]
      rw [if_neg (by omega)]
      split
      · rfl
      · rename_i h1
        have : f ≠ w.next := by omega
        simp only [this, if_false]
        exact hg f (by omega)
    · simp [after, addFd]
    · funext f
      simp only [after, addFd, without]
      by_cases hf : f = w.next
      · simp only [hf, if_true]; rw [if_neg (Ne.symm hne), hg _ (Nat.le_refl _)]
      · simp only [hf, if_false]
  simp only [checkAfter, hnx, e3, Option.bind_eq_bind, Option.bind_some]
  cases r with
  | error e => obtain ⟨w', e', o⟩ := herr e; exact ⟨_, w', e', o, by simp⟩
  | ok a =>
    obtain ⟨na, hna, rfl⟩ := h3 a rfl
    by_cases hrf : refused E (statOf nb) (statOf na) = true
    · simp only [hrf, if_true]
      obtain ⟨w', e', o⟩ := herr ENOLINK; exact ⟨_, w', e', o, by simp⟩
    · simp only [Bool.not_eq_true] at hrf
      simp only [hrf, Bool.false_eq_true, if_false]
      have hf1 : without (addFd (after (after w p1 p1) p2 p2) i).2.fds cur = plus (without w.fds cur) w.next i := by
        funext f
        simp only [after, addFd, without, plus]
        by_cases hf : f = w.next
        · simp only [hf, if_true]; rw [if_neg (Ne.symm hne)]
        · simp only [hf, if_false]
      have hl : (after { (addFd (after (after w p1 p1) p2 p2) i).2 with fds := without (addFd (after (after w p1 p1) p2 p2) i).2.fds cur } p3 p3).log
            = w.log ++ [(p1, p1), (p2, p2), (p3, p3)] := by simp [after, addFd]
      have hseen : Seen (w.log ++ [(p1, p1), (p2, p2), (p3, p3)]) (pUid E) w.log.length (w.log ++ [(p1, p1), (p2, p2), (p3, p3)]).length d c slash i :=
        ⟨w.log.length, w.log.length + 1, w.log.length + 2, b, m, (p1, p1), (p2, p2), (p3, p3), nb, na, Nat.le_refl _, by omega, by omega,
          by simp, by simp, by simp, hb, hnb, hr, hna, trusted_of_not_refused E nb na hrf, by simp⟩
      refine ⟨_, _, rfl, ⟨?_, ?_, [(p1, p1), (p2, p2), (p3, p3)], hl, Nat.le_refl _, i, hf1, ?_, ?_⟩, ?_⟩
      · intro f hf
        simp only [after, addFd] at hf
        simp only [after, addFd, without]
        have h1 : f ≠ w.next := by omega
        simp only [h1, if_false]
        split
        · rfl
        · exact hg f (by omega)
      · simp [after, addFd]
      · rw [hl]
        obtain ⟨t1, t2, t3, b, m, s1, s2, s3, nb, na, a1, a2, a3, a4, a5, a6, a7, a8, a9, a10, a11, a12⟩ := hseen
        have := Walked.step (uid := E.euid) (gid := E.egid) w.log.length d c slash [] t1 t2 t3 b i m i s1 s2 s3 nb na a1 a2 a3 a4 a5 a6 a7 a8 (hs.imp id fun h => ⟨h, rfl⟩) a9 a10 a11
          (.done _ _)
        simpa using this
      · intro c' slash' _
        exact ⟨.inl ⟨rfl, honly⟩, by simp⟩
      · intro fd size hfs
        cases hfs
        refine ⟨rfl, hf1, ?_⟩
        rw [hl]; exact hseen

theorem inner_spec (E : Env) (cr : Prop) (w : World) (hg : Good w) (cur d : Nat) (hcur : w.fds cur = some d) (name : Name) (hname : comps name = [name]) :
    ∃ r w', inner E w cur name = some (r, w') ∧ Outcome E cr w cur d [name] r w' ∧
      ∀ fd size, r = .ok (fd, size) → size.isSome ∧ ∃ i, w'.fds = plus (without w.fds cur) fd i ∧ Seen w'.log (pUid E) w.log.length w'.log.length d name [] i := by
  obtain ⟨r1, p1, e1, h1⟩ := fstatat_spec E w cur d name hcur
  simp only [inner, e1, Option.bind_eq_bind, Option.bind_some]
  cases r1 with
  | error e =>
    refine ⟨_, _, fail_spec _ cur d e hcur, ⟨good_fail hg p1 cur, Nat.le_refl _, [(p1, p1)], rfl, rfl, only_one p1⟩, by simp⟩
  | ok st =>
    obtain ⟨b, nb, hb, hnb, rfl⟩ := h1 st rfl
    rcases openat_spec E (after w p1 p1) cur d name ⟨false, false, false, false⟩ hcur (by simp) rfl with ⟨e, p2, e2⟩ | ⟨i, p2, post, e2, ho⟩
    · simp only [e2, Option.bind_some]
      refine ⟨_, _, fail_spec _ cur d e hcur, ⟨?_, Nat.le_refl _, [(p1, p1), (p2, p2)], by simp [after], rfl, only_append (a := [(p1, p1)]) (only_one p1) (only_one p2)⟩, by simp⟩
      intro f hf
      simp only [after, without]
      split
      · rfl
      · exact hg f hf
    · simp only [e2, Option.bind_some]
      rcases ho with ⟨_, rfl, m, hm⟩ | ⟨h, _⟩
      · rw [hname] at hm
        obtain ⟨r, w', e, o, hs⟩ := finish_component E cr w hg cur d hcur name [] (.inl rfl) p1 b nb hb hnb post i m hm
        refine ⟨r, w', ?_, o, fun fd size h => ⟨(hs fd size h).1, i, (hs fd size h).2⟩⟩
        rw [← e]
        have hne : cur ≠ w.next := by intro h; rw [h, hg _ (Nat.le_refl _)] at hcur; cases hcur
        have hc : (addFd (after (after w p1 p1) post post) i).2.fds cur = some d := by simp [addFd, after, hne, hcur]
        rw [close_spec _ cur d hc]
        rfl
      · cases h

theorem outcome_later {E : Env} {cr : Prop} {w w2 : World} {cur d : Nat} {cs : List Name} {r : Except Nat (Nat × Option Nat)} {w' : World} {l : List (FS × FS)}
    (h : Outcome E cr w2 cur d cs r w') (h1 : w2.fds = w.fds) (h2 : w2.next = w.next) (h3 : w2.log = w.log ++ l) (h4 : Only l) : Outcome E cr w cur d cs r w' := by
  obtain ⟨g, hn, l', hl, hr⟩ := h
  refine ⟨g, by omega, l ++ l', by rw [hl, h3, List.append_assoc], ?_⟩
  cases r with
  | error e => exact ⟨by rw [← h1]; exact hr.1, only_append h4 hr.2⟩
  | ok p =>
    obtain ⟨fd, size⟩ := p
    obtain ⟨ha, i, hb, hc, hd⟩ := hr
    refine ⟨by omega, i, by rw [← h1]; exact hb, walked_later hc _ (by rw [h3]; simp), ?_⟩
    intro c slash hcs
    obtain ⟨he, hz⟩ := hd c slash hcs
    refine ⟨?_, hz⟩
    rcases he with ⟨a, b⟩ | ⟨a, l'', pre, post, d', dn, rfl, b, rest⟩
    · exact .inl ⟨a, only_append h4 b⟩
    · exact .inr ⟨a, l ++ l'', pre, post, d', dn, by simp, only_append h4 b, rest⟩

/-- One attempt at the last component: it is settled, or repeated in a later state. -/
theorem leaf_once (E : Env) (cur d : Nat) (name : Name) (path : List UInt8) (fl : Flags)
    (hp : (comps path = [name] ∧ name = path ∧ (47 : UInt8) ∉ path) ∨ (comps path = [name, [46]] ∧ (47 : UInt8) ∈ path))
    (attempts : Nat) (w : World) (hg : Good w) (hcur : w.fds cur = some d) :
    (∃ r w', leaf E cur name path fl attempts w = some (r, w') ∧ Outcome E (fl.creat = true) w cur d (comps path) r w') ∨
    (∃ w2 l, leaf E cur name path fl attempts w = (match attempts with
        | 0 => fail w2 cur EACCES
        | a + 1 => leaf E cur name path fl a w2) ∧ w2.fds = w.fds ∧ w2.next = w.next ∧ w2.log = w.log ++ l ∧ Only l) := by
  obtain ⟨slash, hcs, hsl⟩ : ∃ slash, comps path = name :: slash ∧ (slash = [] ∨ slash = [[46]]) := by
    rcases hp with ⟨h, _⟩ | ⟨h, _⟩
    · exact ⟨[], h, .inl rfl⟩
    · exact ⟨[[46]], h, .inr rfl⟩
  have hne : cur ≠ w.next := by intro h; rw [h, hg _ (Nat.le_refl _)] at hcur; cases hcur
  obtain ⟨r1, p1, e1, h1⟩ := fstatat_spec E w cur d name hcur
  have hfail1 : ∀ e, ∃ r w', fail (after w p1 p1) cur e = some (r, w') ∧ Outcome E (fl.creat = true) w cur d (comps path) r w' := by
    intro e
    exact ⟨_, _, fail_spec _ cur d e hcur, good_fail hg p1 cur, Nat.le_refl _, [(p1, p1)], rfl, rfl, only_one p1⟩
  rw [leaf.eq_def]
  simp only [e1, Option.bind_eq_bind, Option.bind_some]
  cases hle : leafError fl r1 with
  | some e =>
    obtain ⟨r, w', e, o⟩ := hfail1 e
    exact .inl ⟨r, w', e, o⟩
  | none =>
      have hopen := openat_spec E (after w p1 p1) cur d path (leafFlags fl r1.isOk) hcur (by
        unfold leafFlags; split <;> simp) (by unfold leafFlags; split <;> simp)
      rcases hopen with ⟨e, p2, e2⟩ | ⟨i, p2, post, e2, ho⟩
      · simp only [e2, Option.bind_some]
        split
        · right
          refine ⟨after (after w p1 p1) p2 p2, [(p1, p1), (p2, p2)], ?_, rfl, rfl, by simp [after], only_append (a := [(p1, p1)]) (only_one p1) (only_one p2)⟩
          cases attempts <;> rfl
        · left
          refine ⟨_, _, fail_spec _ cur d e hcur, ?_, Nat.le_refl _, [(p1, p1), (p2, p2)], by simp [after], rfl, only_append (a := [(p1, p1)]) (only_one p1) (only_one p2)⟩
          intro f hf
          simp only [after, without]
          split
          · rfl
          · exact hg f hf
      · left
        simp only [e2, Option.bind_some]
        have hcl : (addFd (after (after w p1 p1) p2 post) i).2.fds cur = some d := by simp [addFd, after, hne, hcur]
        rw [close_spec _ cur d hcl]
        simp only [Option.bind_some]
        cases r1 with
        | ok st =>
          obtain ⟨b, nb, hb, hnb, rfl⟩ := h1 st rfl
          rcases ho with ⟨_, rfl, m, hm⟩ | ⟨h, _⟩
          · rw [hcs] at hm
            obtain ⟨r, w', e, o, _⟩ := finish_component E _ w hg cur d hcur name slash hsl p1 b nb hb hnb post i m hm
            refine ⟨r, w', ?_, by rw [hcs]; exact o⟩
            rw [← e]
            rw [close_spec _ cur d hcl]
            rfl
          · simp [leafFlags, Except.isOk, Except.toBool] at h
        | error e =>
          have hc1 : e = ENOENT ∧ fl.creat = true := by
            simp only [leafError] at hle
            split at hle
            · cases hle
            · rename_i hh
              simpa using hh
          rcases ho with ⟨h, _⟩ | ⟨_, h47, hent, hfr, rfl, dn, hdn, rfl⟩
          · simp [leafFlags, Except.isOk, Except.toBool, hc1.2] at h
          · have hpn : comps path = [name] ∧ name = path := by
              rcases hp with ⟨a, b, _⟩ | ⟨_, b⟩
              · exact ⟨a, b⟩
              · exact absurd b h47
            obtain ⟨hcn, rfl⟩ := hpn
            rw [hcn]
            simp only [checkAfter]
            refine ⟨_, _, rfl, ?_, ?_, [(p1, p1), (p2, created p2 d dn name E.euid E.egid)], by simp [after, addFd], Nat.le_refl _, p2.fresh, ?_, ?_, ?_⟩
            · intro f hf
              simp only [after, addFd] at hf
              simp only [after, addFd, without]
              have h1 : f ≠ w.next := by omega
              simp only [h1, if_false]
              split
              · rfl
              · exact hg f (by omega)
            · simp [after, addFd]
            · funext f
              simp only [after, addFd, without, plus]
              by_cases hf : f = w.next
              · simp only [hf, if_true]; rw [if_neg (Ne.symm hne)]
              · simp only [hf, if_false]
            · refine .create _ _ _ (w.log.length + 1) p2 _ dn (by omega) ?_ hent hdn hfr rfl
              simp [after, addFd]
            · intro c slash' hcc
              cases hcc
              exact ⟨.inr ⟨rfl, [(p1, p1)], p2, _, d, dn, rfl, only_one p1, hent, hdn, hfr, rfl, rfl, hc1.2⟩, fun _ => rfl⟩

theorem leaf_spec (E : Env) (cur d : Nat) (name : Name) (path : List UInt8) (fl : Flags)
    (hp : (comps path = [name] ∧ name = path ∧ (47 : UInt8) ∉ path) ∨ (comps path = [name, [46]] ∧ (47 : UInt8) ∈ path)) :
    ∀ attempts w, Good w → w.fds cur = some d →
      ∃ r w', leaf E cur name path fl attempts w = some (r, w') ∧ Outcome E (fl.creat = true) w cur d (comps path) r w' := by
  intro attempts
  induction attempts with
  | zero =>
    intro w hg hcur
    rcases leaf_once E cur d name path fl hp 0 w hg hcur with h | ⟨w2, l, e, h1, h2, h3, h4⟩
    · exact h
    · refine ⟨.error EACCES, { w2 with fds := without w2.fds cur }, by rw [e]; exact fail_spec w2 cur d EACCES (by rw [h1]; exact hcur), ?_, by simp [h2], l, h3,
        by simp only [h1], h4⟩
      intro f hf
      simp only [without, h1]
      simp only [h2] at hf
      split
      · rfl
      · exact hg f hf
  | succ a ih =>
    intro w hg hcur
    rcases leaf_once E cur d name path fl hp (a + 1) w hg hcur with h | ⟨w2, l, e, h1, h2, h3, h4⟩
    · exact h
    · obtain ⟨r, w', e', o⟩ := ih w2 (by intro f hf; rw [h1]; exact hg f (by omega)) (by rw [h1]; exact hcur)
      exact ⟨r, w', by rw [e]; exact e', outcome_later o h1 h2 h3 h4⟩

/-- The outcome of the loop over all the components: as for one, and `trunc` only for a file that existed. -/
def LoopOutcome (E : Env) (fl : Flags) (w : World) (cur d : Nat) (cs : List Name) (r : Except Nat (Nat × Option Nat × Bool)) (w' : World) : Prop :=
  Good w' ∧ w.next ≤ w'.next ∧ ∃ l, w'.log = w.log ++ l ∧
    match r with
    | .error _ => w'.fds = without w.fds cur ∧ Only l
    | .ok (fd, size, trunc) => (fd = cur ∨ w.next ≤ fd) ∧ (trunc = (fl.trunc && size.isSome)) ∧
        ∃ i, w'.fds = plus (without w.fds cur) fd i ∧ Walked w'.log (pUid E) E.euid E.egid w.log.length d cs i ∧
        (Only l ∨ size = none ∧ ∃ l' pre post d' dn c, l = l' ++ [(pre, post)] ∧ Only l' ∧ cs.getLast? = some c ∧ entry pre d' c = .error ENOENT ∧ pre.node d' = some dn ∧
          pre.node pre.fresh = none ∧ post = created pre d' dn c E.euid E.egid ∧ i = pre.fresh ∧ fl.creat = true)

theorem walked_cons {log : List (FS × FS)} {me uid gid t d i j t' : Nat} {c : Name} {cs : List Name}
    (h1 : Seen log me t t' d c [] i) (h2 : Walked log me uid gid t' i cs j) : Walked log me uid gid t d (c :: cs) j := by
  obtain ⟨t1, t2, t3, b, m, s1, s2, s3, nb, na, a1, a2, a3, a4, a5, a6, a7, a8, a9, a10, a11, a12⟩ := h1
  have := Walked.step t d c [] cs t1 t2 t3 b i m j s1 s2 s3 nb na a1 a2 a3 a4 a5 a6 a7 a8 (.inl rfl) a9 a10 a11 (walked_later h2 (t3 + 1) (by omega))
  simpa using this

theorem seen_mono {log : List (FS × FS)} {me t t' d i : Nat} {c : Name} {slash : List Name} (h : Seen log me t t' d c slash i) (l : List (FS × FS)) :
    Seen (log ++ l) me t t' d c slash i := by
  have hp : ∀ {k : Nat} {s : FS × FS} (l : List (FS × FS)), log[k]? = some s → (log ++ l)[k]? = some s := by
    intro k s l hk
    obtain ⟨hlt, _⟩ := List.getElem?_eq_some_iff.mp hk
    rw [List.getElem?_append_left hlt, hk]
  obtain ⟨t1, t2, t3, b, m, s1, s2, s3, nb, na, a1, a2, a3, a4, a5, a6, a7⟩ := h
  exact ⟨t1, t2, t3, b, m, s1, s2, s3, nb, na, a1, a2, a3, hp l a4, hp l a5, hp l a6, a7⟩

theorem loop_spec (E : Env) (fl : Flags) : ∀ (n : Nat) (rest : List UInt8) (w : World) (cur d : Nat), rest.length ≤ n → rest.head? ≠ some 47 → Good w → w.fds cur = some d →
    ∃ r w', loop E fl w cur rest = some (r, w') ∧ LoopOutcome E fl w cur d (comps rest) r w' := by
  intro n
  induction n with
  | zero =>
    intro rest w cur d hn _ hg hcur
    have : rest = [] := List.length_eq_zero_iff.mp (by omega)
    subst this
    rw [loop.eq_def]
    exact ⟨_, _, rfl, hg, Nat.le_refl _, [], by simp, .inl rfl, by simp, d, by
      funext f; simp only [plus, without]; by_cases hf : f = cur
      · simp [hf, hcur]
      · simp [hf], .done _ _, .inl only_nil⟩
  | succ n ih =>
    intro rest w cur d hn hh hg hcur
    cases rest with
    | nil =>
      rw [loop.eq_def]
      exact ⟨_, _, rfl, hg, Nat.le_refl _, [], by simp, .inl rfl, by simp, d, by
        funext f; simp only [plus, without]; by_cases hf : f = cur
        · simp [hf, hcur]
        · simp [hf], .done _ _, .inl only_nil⟩
    | cons c s =>
      have hc : c ≠ 47 := by simpa using hh
      rw [loop.eq_def]
      simp only
      split
      · rename_i hd
        obtain ⟨r, w', e, o⟩ := leaf_spec E cur d (splitName (c :: s)).1 (c :: s) fl (comps_leaf c s hc hd) 3 w hg hcur
        rw [e]
        obtain ⟨g, hnx, l, hl, hr⟩ := o
        cases r with
        | error e' => exact ⟨_, _, rfl, g, hnx, l, hl, hr⟩
        | ok p =>
          obtain ⟨fd, size⟩ := p
          obtain ⟨h1, i, h2, h3, h4⟩ := hr
          refine ⟨_, _, rfl, g, hnx, l, hl, .inr h1, rfl, i, h2, h3, ?_⟩
          rcases comps_leaf c s hc hd with ⟨hcs, hnm, h47⟩ | ⟨hcs, h47⟩
          · rcases (h4 _ _ hcs).1 with ⟨_, h⟩ | ⟨a, l', pre, post, d', dn, h⟩
            · exact .inl h
            · exact .inr ⟨a, l', pre, post, d', dn, _, h.1, h.2.1, by rw [hcs]; rfl, h.2.2⟩
          · rcases (h4 _ _ hcs).1 with ⟨_, h⟩ | ⟨a, l', pre, post, d', dn, h⟩
            · exact .inl h
            · exact absurd ((h4 _ _ hcs).2 a) (by simp)
      · rename_i c' s' hd
        obtain ⟨hcs, hcn, h47, hc'⟩ := comps_inner c s hc c' s' hd
        obtain ⟨r, w1, e, o, hseen⟩ := inner_spec E (fl.creat = true) w hg cur d hcur (splitName (c :: s)).1 hcn
        rw [e]
        obtain ⟨g1, hnx, l1, hl1, hr1⟩ := o
        cases r with
        | error e' => exact ⟨_, _, rfl, g1, hnx, l1, hl1, hr1⟩
        | ok p =>
          obtain ⟨fd, size⟩ := p
          obtain ⟨h1, i', h2', h3', h4'⟩ := hr1
          obtain ⟨hsz, i, h2, hs⟩ := hseen fd size rfl
          have ho1 : Only l1 := by
            rcases (h4' _ _ rfl).1 with ⟨_, h⟩ | ⟨rfl, l', pre, post, d', dn, h⟩
            · exact h
            · cases hsz
          have hfd : w1.fds fd = some i := by rw [h2]; simp [plus]
          have hlen : (c' :: s').length ≤ n := by
            have := splitName_length c s
            rw [hd] at this
            simp only [List.length_cons] at this hn ⊢
            omega
          obtain ⟨r2, w2, e2, g2, hnx2, l2, hl2, hr2⟩ := ih (c' :: s') w1 fd i hlen (by simpa using hc') g1 hfd
          refine ⟨r2, w2, e2, g2, by omega, l1 ++ l2, by rw [hl2, hl1, List.append_assoc], ?_⟩
          have hfdne : w.fds fd = none := hg fd h1
          have hwo : without w1.fds fd = without w.fds cur := by
            rw [h2]; funext f
            simp only [without, plus]
            by_cases hf : f = fd
            · subst hf; simp only [if_true]; split
              · rfl
              · exact hfdne.symm
            · simp only [hf, if_false]
          cases r2 with
          | error e' => exact ⟨by rw [hr2.1, hwo], only_append ho1 hr2.2⟩
          | ok q =>
            obtain ⟨fd2, size2, trunc⟩ := q
            obtain ⟨q1, q2, j, q3, q4, q5⟩ := hr2
            refine ⟨?_, q2, j, by rw [q3, hwo], ?_, ?_⟩
            · rcases q1 with rfl | q1
              · exact .inr h1
              · exact .inr (by omega)
            · rw [hcs]
              refine walked_cons (t' := w1.log.length) ?_ q4
              rw [hl2]; exact seen_mono hs l2
            · rcases q5 with h | ⟨a, l', pre, post, d', dn, c'', hh, ho, hlast, rest⟩
              · exact .inl (only_append ho1 h)
              · refine .inr ⟨a, l1 ++ l', pre, post, d', dn, c'', by rw [hh, List.append_assoc], only_append ho1 ho, ?_, rest⟩
                rw [hcs]
                cases hcc : comps (c' :: s') with
                | nil => rw [hcc] at hlast; simp at hlast
                | cons x xs => rw [hcc] at hlast; rw [List.getLast?_cons_cons]; exact hlast

/-- The outcome of the whole call. -/
theorem safeOpen_spec (E : Env) (fl : Flags) (path : List UInt8) (w : World) (hg : Good w) (hf : fl.trunc = true → fl.wr = true) :
    ∃ r w', safeOpen E w path fl = some (r, w') ∧ Good w' ∧ ∃ l, w'.log = w.log ++ l ∧
      match r with
      | .error _ => w'.fds = w.fds ∧ Only l
      | .ok fd => w.fds fd = none ∧ ∃ i s0, w'.fds = plus w.fds fd i ∧ w'.log[w.log.length]? = some s0 ∧
          Walked w'.log (pUid E) E.euid E.egid (w.log.length + 1) (if path.head? = some 47 then s0.1.root else E.cwd) (comps path) i ∧
          (Only l ∨
           (∃ l' pre post d' dn c, l = l' ++ [(pre, post)] ∧ Only l' ∧ (comps path).getLast? = some c ∧ entry pre d' c = .error ENOENT ∧ pre.node d' = some dn ∧
              pre.node pre.fresh = none ∧ post = created pre d' dn c E.euid E.egid ∧ i = pre.fresh ∧ fl.creat = true) ∨
           (fl.trunc = true ∧ ∃ l' pre, l = l' ++ [(pre, truncated pre i)] ∧ Only l')) := by
  unfold safeOpen
  rw [if_neg (by
    simp only [Bool.and_eq_true, Bool.not_eq_true', not_and, Bool.not_eq_false]
    exact hf)]
  cases path with
  | nil => exact ⟨_, _, rfl, hg, [], by simp, rfl, only_nil⟩
  | cons c s =>
    simp only
    obtain ⟨r0, p0, q0, e0, h0⟩ := call_spec E w (fun fs => some ((.ok (if (c == 47) = true then fs.root else E.cwd) : Except Nat Nat), fs)) (by simp)
    have hq : q0 = p0 := by
      rcases h0 with ⟨_, _, h⟩ | h
      · exact h
      · cases h; rfl
    subst hq
    have hopen : openFirst E w (c == 47) = (match (r0, after w q0 q0) with
        | (.error e, w) => some (.error e, w)
        | (.ok i, w) => let p := addFd w i; some (.ok p.1, p.2)) := by
      simp only [openFirst, e0, Option.bind_eq_bind, Option.bind_some]
      cases r0 <;> rfl
    simp only [hopen]
    cases r0 with
    | error e => exact ⟨_, _, rfl, hg, [(q0, q0)], rfl, rfl, only_one q0⟩
    | ok i0 =>
      have hi0 : i0 = if (c == 47) = true then q0.root else E.cwd := by
        rcases h0 with ⟨_, h, _⟩ | h
        · cases h
        · cases h; rfl
      simp only [Option.bind_eq_bind, Option.bind_some]
      have hcomps : comps (c :: s) = comps (if c = 47 then s.dropWhile (· == 47) else c :: s) := by
        split
        · rename_i h; subst h; exact comps_abs s
        · rfl
      have hhead : (if c = 47 then s.dropWhile (· == 47) else c :: s).head? ≠ some 47 := by
        split
        · intro h
          cases hd : s.dropWhile (· == 47) with
          | nil => rw [hd] at h; simp at h
          | cons a t => rw [hd] at h; simp at h; exact dropWhile_head _ _ _ hd h
        · simpa using ‹_›
      have hg1 : Good (addFd (after w q0 q0) i0).2 := by
        intro f hf
        simp only [addFd, after] at hf ⊢
        have h1 : f ≠ w.next := by omega
        simp only [h1, if_false]; exact hg f (by omega)
      obtain ⟨r, w1, e1, g1, hnx, l, hl, hr⟩ := loop_spec E fl _ _ (addFd (after w q0 q0) i0).2 w.next i0 (Nat.le_refl _) hhead hg1 (by simp [addFd, after])
      have e1' : loop E fl (addFd (after w q0 q0) i0).2 (addFd (after w q0 q0) i0).1 (if c = 47 then s.dropWhile (· == 47) else c :: s) = some (r, w1) := e1
      simp only [e1', Option.bind_some]
      have hwo : without (addFd (after w q0 q0) i0).2.fds w.next = w.fds := by
        funext f
        simp only [without, addFd, after]
        by_cases hf : f = w.next
        · simp only [hf, if_true]; exact (hg _ (Nat.le_refl _)).symm
        · simp only [hf, if_false]
      have hl' : w1.log = w.log ++ ((q0, q0) :: l) := by rw [hl]; simp [addFd, after]
      have hzero : ∀ l2, (w1.log ++ l2)[w.log.length]? = some (q0, q0) := by intro l2; rw [hl']; simp
      cases r with
      | error e =>
        exact ⟨_, _, rfl, g1, (q0, q0) :: l, hl', by rw [hr.1, hwo], only_append (a := [(q0, q0)]) (only_one q0) hr.2⟩
      | ok p =>
        obtain ⟨fd, size, trunc⟩ := p
        obtain ⟨h1, h2, i, h3, h4, h5⟩ := hr
        rw [hwo] at h3
        have hfdn : w.fds fd = none := by
          rcases h1 with rfl | h1
          · exact hg _ (Nat.le_refl _)
          · exact hg _ (by simp only [addFd, after] at h1; omega)
        have hW : Walked w1.log (pUid E) E.euid E.egid (w.log.length + 1) (if (c :: s).head? = some 47 then q0.root else E.cwd) (comps (c :: s)) i := by
          rw [hcomps]
          have : (if (c :: s).head? = some 47 then q0.root else E.cwd) = i0 := by rw [hi0]; simp
          rw [this]
          have hlen : (addFd (after w q0 q0) i0).2.log.length = w.log.length + 1 := by simp [addFd, after]
          rw [← hlen]; exact h4
        have hEff : Only ((q0, q0) :: l) ∨
           (∃ l' pre post d' dn c', ((q0, q0) :: l) = l' ++ [(pre, post)] ∧ Only l' ∧ (comps (c :: s)).getLast? = some c' ∧ entry pre d' c' = .error ENOENT ∧ pre.node d' = some dn ∧
              pre.node pre.fresh = none ∧ post = created pre d' dn c' E.euid E.egid ∧ i = pre.fresh ∧ fl.creat = true) := by
          rcases h5 with h | ⟨_, l', pre, post, d', dn, c', hh, ho, rest⟩
          · exact .inl (only_append (a := [(q0, q0)]) (only_one q0) h)
          · exact .inr ⟨(q0, q0) :: l', pre, post, d', dn, c', by rw [hh]; rfl, only_append (a := [(q0, q0)]) (only_one q0) ho, by rw [hcomps]; exact rest⟩
        have hplain : ∃ r w', (some ((.ok fd : Except Nat Nat), w1)) = some (r, w') ∧ Good w' ∧ ∃ l, w'.log = w.log ++ l ∧
          match r with
          | .error _ => w'.fds = w.fds ∧ Only l
          | .ok fd => w.fds fd = none ∧ ∃ i s0, w'.fds = plus w.fds fd i ∧ w'.log[w.log.length]? = some s0 ∧
              Walked w'.log (pUid E) E.euid E.egid (w.log.length + 1) (if (c :: s).head? = some 47 then s0.1.root else E.cwd) (comps (c :: s)) i ∧
              (Only l ∨
               (∃ l' pre post d' dn c', l = l' ++ [(pre, post)] ∧ Only l' ∧ (comps (c :: s)).getLast? = some c' ∧ entry pre d' c' = .error ENOENT ∧ pre.node d' = some dn ∧
                  pre.node pre.fresh = none ∧ post = created pre d' dn c' E.euid E.egid ∧ i = pre.fresh ∧ fl.creat = true) ∨
               (fl.trunc = true ∧ ∃ l' pre, l = l' ++ [(pre, truncated pre i)] ∧ Only l')) := by
          refine ⟨_, _, rfl, g1, (q0, q0) :: l, hl', hfdn, i, (q0, q0), h3, by simpa using hzero [], hW, ?_⟩
          rcases hEff with h | h
          · exact .inl h
          · exact .inr (.inl h)
        show ∃ r w', finish E w1 fd size trunc = some (r, w') ∧ _
        unfold finish
        by_cases ht : trunc = true
        · rw [if_pos ht]
          have hts : fl.trunc = true ∧ size.isSome = true := by rw [ht] at h2; simpa using h2.symm
          obtain ⟨hT, hS⟩ := hts
          obtain ⟨n, rfl⟩ := Option.isSome_iff_exists.mp hS
          simp only
          by_cases hn : n ≠ 0
          · rw [if_pos hn]
            have hO : Only ((q0, q0) :: l) := by
              rcases h5 with h | ⟨h, _⟩
              · exact only_append (a := [(q0, q0)]) (only_one q0) h
              · cases h
            have hfi : w1.fds fd = some i := by rw [h3]; simp [plus]
            rcases ftruncate_spec E w1 fd i hfi with ⟨e, pre, ee⟩ | ⟨pre, ee⟩
            · simp only [ee, Option.bind_eq_bind, Option.bind_some]
              rw [close_spec _ fd i (by simpa [after] using hfi)]
              refine ⟨.error e, _, rfl, ?_, (q0, q0) :: l ++ [(pre, pre)], by simp [after, hl'], ?_, only_append hO (only_one pre)⟩
              · intro f hf
                simp only [after, without]
                split
                · rfl
                · exact g1 f hf
              · funext f
                simp only [after, without, h3, plus]
                by_cases hf : f = fd
                · simp only [hf, if_true]; exact hfdn.symm
                · simp only [hf, if_false]
            · simp only [ee, Option.bind_some]
              refine ⟨.ok fd, _, rfl, g1, (q0, q0) :: l ++ [(pre, truncated pre i)], by simp [after, hl'], hfdn, i, (q0, q0), h3, hzero _, walked_mono hW _, ?_⟩
              exact .inr (.inr ⟨hT, _, pre, rfl, hO⟩)
          · rw [if_neg hn]; exact hplain
        · rw [if_neg ht]; exact hplain

end SafeOpen
