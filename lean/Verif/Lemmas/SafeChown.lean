import Verif.Lemmas.SafeOpenQuiet
import Verif.Spec.SafeChown
/-! # Runs of safe_chown and safe_chmod in a changing filesystem -/
namespace SafeOpen
open SafeOpenSpec

theorem good_without {w : World} (h : Good w) (fs : FS) (log : List (FS × FS)) (fd : Nat) : Good { w with fs := fs, log := log, fds := without w.fds fd } := by
  intro f hf
  simp only [without]
  split
  · rfl
  · exact h f hf

theorem good_after {w : World} (h : Good w) (pre post : FS) : Good (after w pre post) := h

theorem without_plus {t : Nat → Option Nat} {fd i : Nat} (h : t fd = none) : without (plus t fd i) fd = t := by
  funext f
  simp only [without, plus]
  by_cases hf : f = fd
  · simp [hf, h]
  · simp [hf]

theorem without_plus2 {t : Nat → Option Nat} {fd i fd2 j : Nat} (h : t fd = none) (hne : fd ≠ fd2) : without (plus (plus t fd i) fd2 j) fd = plus t fd2 j := by
  funext f
  simp only [without, plus]
  by_cases hf : f = fd
  · subst hf; simp [h, hne]
  · simp [hf]

theorem lstatat_spec (E : Env) (w : World) (fd d : Nat) (leaf : Name) (h : w.fds fd = some d) :
    ∃ r pre, lstatat E w fd leaf = some (r, after w pre pre) ∧
      ∀ i st, r = .ok (i, st) → ∃ nb, entryLeaf pre d leaf = .ok i ∧ pre.node i = some nb ∧ st = lstatOf nb := by
  unfold lstatat
  rw [h]
  obtain ⟨r, pre, post, e, hr⟩ := call_spec E w (fun fs => some ((match entryLeaf fs d leaf with
    | .error e => .error e
    | .ok i => match fs.node i with
      | some n => .ok (i, lstatOf n)
      | none => .error ESTALE : Except Nat (Nat × LStat)), fs)) (by simp)
  rcases hr with ⟨e', rfl, rfl⟩ | hr
  · exact ⟨_, _, e, by simp⟩
  · simp only [Option.some.injEq, Prod.mk.injEq] at hr
    obtain ⟨hr, rfl⟩ := hr
    refine ⟨r, pre, e, ?_⟩
    rintro i st rfl
    split at hr
    · cases hr
    · rename_i j hj
      split at hr
      · rename_i n hn; cases hr; exact ⟨n, hj, hn, rfl⟩
      · cases hr

theorem readlinkat_spec (E : Env) (w : World) (fd d : Nat) (leaf : Name) (size : Nat) (h : w.fds fd = some d) :
    ∃ r pre, readlinkat E w fd leaf size = some (r, after w pre pre) ∧
      ∀ t, r = .ok t → ∃ i n tg, entryLeaf pre d leaf = .ok i ∧ pre.node i = some n ∧ n.kind = .link tg ∧ t = tg.take size := by
  unfold readlinkat
  rw [h]
  obtain ⟨r, pre, post, e, hr⟩ := call_spec E w (fun fs => some ((match entryLeaf fs d leaf with
    | .error e => .error e
    | .ok i => match fs.node i with
      | some ⟨.link t, _, _⟩ => .ok (t.take size)
      | some _ => .error EINVAL
      | none => .error ESTALE : Except Nat (List UInt8)), fs)) (by simp)
  rcases hr with ⟨e', rfl, rfl⟩ | hr
  · exact ⟨_, _, e, by simp⟩
  · simp only [Option.some.injEq, Prod.mk.injEq] at hr
    obtain ⟨hr, rfl⟩ := hr
    refine ⟨r, pre, e, ?_⟩
    rintro t rfl
    split at hr
    · cases hr
    · rename_i j hj
      split at hr
      · rename_i tg u g hn; cases hr; exact ⟨j, _, tg, hj, hn, rfl, rfl⟩
      · cases hr
      · cases hr

theorem fchownat_spec (E : Env) (w : World) (fd d : Nat) (leaf : Name) (owner group : Option Nat) (h : w.fds fd = some d) :
    ∃ r pre post, fchownat E w fd leaf owner group = some (r, after w pre post) ∧
      match r with
      | .error _ => post = pre
      | .ok _ => ∃ i n, entryLeaf pre d leaf = .ok i ∧ pre.node i = some n ∧ post = chowned pre i owner group := by
  unfold fchownat
  rw [h]
  obtain ⟨r, pre, post, e, hr⟩ := call_spec E w (fun fs => some (match entryLeaf fs d leaf with
    | .error e => ((.error e : Except Nat Unit), fs)
    | .ok i => match fs.node i with
      | some _ => (.ok (), chowned fs i owner group)
      | none => (.error ESTALE, fs))) (by simp)
  refine ⟨r, pre, post, e, ?_⟩
  rcases hr with ⟨e', rfl, rfl⟩ | hr
  · rfl
  · simp only [Option.some.injEq] at hr
    split at hr
    · cases hr; rfl
    · rename_i j hj
      split at hr
      · rename_i n hn; cases hr; exact ⟨j, n, hj, hn, rfl⟩
      · cases hr; rfl

theorem linkRefused_iff (E : Env) (link : Option (Nat × Nat)) (nb : Inode) : linkRefused E link (lstatOf nb) = false ↔ LinkTrusted E.euid link nb := by
  cases link with
  | none => simp [linkRefused, LinkTrusted]
  | some p =>
    obtain ⟨u, g⟩ := p
    simp only [linkRefused, LinkTrusted, lstatOf]
    by_cases h1 : u = 0 <;> by_cases h2 : u = E.euid <;> by_cases h3 : u = nb.uid <;> by_cases h4 : g = nb.gid <;> simp [h1, h2, h3, h4] <;> simp_all

theorem isLink_false {n : Inode} (h : (lstatOf n).isLink = false) : ∀ tg, n.kind ≠ .link tg := by
  intro tg hh
  simp [lstatOf, hh] at h

theorem parent_mono {log : List (FS × FS)} {me walker uid gid cwd : Nat} {nofollow : Bool} {t : Nat} {path : List UInt8} {link : Option (Nat × Nat)} {d : Nat}
    (h : Parent log me walker uid gid cwd nofollow t path link d) (l : List (FS × FS)) : Parent (log ++ l) me walker uid gid cwd nofollow t path link d := by
  have mono : ∀ {t : Nat} {s : FS × FS}, log[t]? = some s → (log ++ l)[t]? = some s := by
    intro t s hh
    rw [List.getElem?_append_left]; · exact hh
    exact (List.getElem?_eq_some_iff.mp hh).1
  induction h with
  | here t path link d t1 b s0 s1 nb h1 h2 h3 h4 h5 h6 h7 h8 => exact .here t path link d t1 b s0 s1 nb (mono h1) (walked_mono h2 l) h3 (mono h4) h5 h6 h7 h8
  | link t path link d0 d t1 t2 b b2 s0 s1 s2 nb n2 tg h1 h2 h3 h4 h5 h6 h7 h8 h9 h10 h11 h12 h13 _ ih =>
    exact .link t path link d0 d t1 t2 b b2 s0 s1 s2 nb n2 tg (mono h1) (walked_mono h2 l) h3 (mono h4) h5 h6 h7 h8 h9 (mono h10) h11 h12 h13 ih

theorem getElem?_last {α : Type} (l : List α) (a : α) : (l ++ [a])[l.length]? = some a := by simp

theorem safeOpen_rd (E : Env) (path : List UInt8) (w : World) (hg : Good w) :
    ∃ r w', safeOpen E w path rdonly = some (r, w') ∧ Good w' ∧ ∃ l, w'.log = w.log ++ l ∧ Only l ∧
      match r with
      | .error _ => w'.fds = w.fds
      | .ok fd => w.fds fd = none ∧ ∃ i s0, w'.fds = plus w.fds fd i ∧ w'.log[w.log.length]? = some s0 ∧
          Walked w'.log (pUid E) E.euid E.egid (w.log.length + 1) (if path.head? = some 47 then s0.1.root else E.cwd) (comps path) i := by
  obtain ⟨r, w', e, g, l, hl, hr⟩ := safeOpen_spec E rdonly path w hg (by simp [rdonly])
  refine ⟨r, w', e, g, l, hl, ?_⟩
  cases r with
  | error e => exact ⟨hr.2, hr.1⟩
  | ok fd =>
    obtain ⟨h1, i, s0, h2, h3, h4, h5⟩ := hr
    refine ⟨?_, h1, i, s0, h2, h3, h4⟩
    rcases h5 with h | ⟨_, _, _, _, _, _, _, _, _, _, _, _, _, _, h⟩ | ⟨h, _⟩
    · exact h
    · simp [rdonly] at h
    · simp [rdonly] at h

theorem trueParent_spec (E : Env) (nofollow : Bool) : ∀ (countdown : Nat) (w : World) (path : List UInt8) (link : Option (Nat × Nat)), Good w →
    ∃ r w', trueParent E nofollow countdown w path link = some (r, w') ∧ Good w' ∧ ∃ l, w'.log = w.log ++ l ∧ Only l ∧
      match r with
      | .error _ => w'.fds = w.fds
      | .ok fd => w.fds fd = none ∧ ∃ d, w'.fds = plus w.fds fd d ∧ Parent w'.log E.euid (pUid E) E.euid E.egid E.cwd nofollow w.log.length path link d := by
  intro countdown
  induction countdown with
  | zero =>
    intro w path link hg
    rw [trueParent.eq_def]
    obtain ⟨r, w1, e1, g1, l1, hl1, ol1, hr1⟩ := safeOpen_rd E (dirname path) w hg
    simp only [e1, Option.bind_eq_bind, Option.bind_some]
    cases r with
    | error e => exact ⟨_, _, rfl, g1, l1, hl1, ol1, hr1⟩
    | ok dirfd =>
      obtain ⟨hn, d, s0, hf1, hs0, hw1⟩ := hr1
      have hfd : w1.fds dirfd = some d := by rw [hf1]; simp [plus]
      obtain ⟨r2, pre, e2, hr2⟩ := lstatat_spec E w1 dirfd d (basename path) hfd
      have hcl : close (after w1 pre pre) dirfd = some { after w1 pre pre with fds := without w1.fds dirfd } := close_spec _ _ d hfd
      simp only [e2, Option.bind_some]
      have hlog : (after w1 pre pre).log = w.log ++ (l1 ++ [(pre, pre)]) := by simp [after, hl1]
      have hon : Only (l1 ++ [(pre, pre)]) := only_append ol1 (only_one pre)
      have hwo : without w1.fds dirfd = w.fds := by rw [hf1, without_plus hn]
      cases r2 with
      | error e => exact ⟨_, _, by simp only [hcl, Option.bind_some]; rfl, good_without g1 _ _ _, _, hlog, hon, hwo⟩
      | ok p =>
        obtain ⟨i, st⟩ := p
        obtain ⟨nb, hb1, hb2, rfl⟩ := hr2 i st rfl
        simp only
        cases hlr : linkRefused E link (lstatOf nb) with
        | true => simp only [if_true, hcl, Option.bind_some]; exact ⟨_, _, rfl, good_without g1 _ _ _, _, hlog, hon, hwo⟩
        | false =>
          simp only [Bool.false_eq_true, if_false]
          cases hlk : ((lstatOf nb).isLink && !nofollow) with
          | true => simp only [if_true, hcl, Option.bind_some]; exact ⟨_, _, rfl, good_without g1 _ _ _, _, hlog, hon, hwo⟩
          | false =>
            simp only [Bool.false_eq_true, if_false]
            refine ⟨_, _, rfl, good_after g1 _ _, _, hlog, hon, hn, d, hf1, ?_⟩
            have hlt : w.log.length < w1.log.length := (List.getElem?_eq_some_iff.mp hs0).1
            refine .here _ path link d w1.log.length i s0 (pre, pre) nb ?_ (walked_mono hw1 _) hlt (getElem?_last _ _) hb1 hb2 ((linkRefused_iff E link nb).mp hlr) ?_
            · simp only [after]; rw [List.getElem?_append_left hlt]; exact hs0
            · simp only [Bool.and_eq_false_iff, Bool.not_eq_false'] at hlk
              rcases hlk with h | h
              · exact .inr (isLink_false h)
              · exact .inl h
  | succ n ih =>
    intro w path link hg
    rw [trueParent.eq_def]
    obtain ⟨r, w1, e1, g1, l1, hl1, ol1, hr1⟩ := safeOpen_rd E (dirname path) w hg
    simp only [e1, Option.bind_eq_bind, Option.bind_some]
    cases r with
    | error e => exact ⟨_, _, rfl, g1, l1, hl1, ol1, hr1⟩
    | ok dirfd =>
      obtain ⟨hn, d, s0, hf1, hs0, hw1⟩ := hr1
      have hfd : w1.fds dirfd = some d := by rw [hf1]; simp [plus]
      obtain ⟨r2, pre, e2, hr2⟩ := lstatat_spec E w1 dirfd d (basename path) hfd
      have hcl : close (after w1 pre pre) dirfd = some { after w1 pre pre with fds := without w1.fds dirfd } := close_spec _ _ d hfd
      simp only [e2, Option.bind_some]
      have hlog : (after w1 pre pre).log = w.log ++ (l1 ++ [(pre, pre)]) := by simp [after, hl1]
      have hon : Only (l1 ++ [(pre, pre)]) := only_append ol1 (only_one pre)
      have hwo : without w1.fds dirfd = w.fds := by rw [hf1, without_plus hn]
      have hlt : w.log.length < w1.log.length := (List.getElem?_eq_some_iff.mp hs0).1
      cases r2 with
      | error e => exact ⟨_, _, by simp only [hcl, Option.bind_some]; rfl, good_without g1 _ _ _, _, hlog, hon, hwo⟩
      | ok p =>
        obtain ⟨i, st⟩ := p
        obtain ⟨nb, hb1, hb2, rfl⟩ := hr2 i st rfl
        simp only
        cases hlr : linkRefused E link (lstatOf nb) with
        | true => simp only [if_true, hcl, Option.bind_some]; exact ⟨_, _, rfl, good_without g1 _ _ _, _, hlog, hon, hwo⟩
        | false =>
          simp only [Bool.false_eq_true, if_false]
          cases hlk : ((lstatOf nb).isLink && !nofollow) with
          | true =>
            simp only [if_true]
            cases n with
            | zero => simp only [hcl, Option.bind_some]; exact ⟨_, _, rfl, good_without g1 _ _ _, _, hlog, hon, hwo⟩
            | succ m =>
              simp only
              have hfd2 : (after w1 pre pre).fds dirfd = some d := hfd
              obtain ⟨r3, pre3, e3, hr3⟩ := readlinkat_spec E (after w1 pre pre) dirfd d (basename path) ((lstatOf nb).size + 1) hfd2
              have hcl3 : close (after (after w1 pre pre) pre3 pre3) dirfd = some { after (after w1 pre pre) pre3 pre3 with fds := without w1.fds dirfd } := close_spec _ _ d hfd
              have hlog3 : (after (after w1 pre pre) pre3 pre3).log = w.log ++ (l1 ++ [(pre, pre)] ++ [(pre3, pre3)]) := by simp [after, hl1]
              have hon3 : Only (l1 ++ [(pre, pre)] ++ [(pre3, pre3)]) := only_append hon (only_one pre3)
              simp only [e3, Option.bind_some]
              cases r3 with
              | error e => simp only [hcl3, Option.bind_some]; exact ⟨_, _, rfl, good_without g1 _ _ _, _, hlog3, hon3, hwo⟩
              | ok t =>
                obtain ⟨i3, n3, tg, hc1, hc2, hc3, rfl⟩ := hr3 t rfl
                simp only
                by_cases hsz : (tg.take ((lstatOf nb).size + 1)).length > (lstatOf nb).size
                · simp only [hsz, if_true, hcl3, Option.bind_some]; exact ⟨_, _, rfl, good_without g1 _ _ _, _, hlog3, hon3, hwo⟩
                · simp only [hsz, if_false]
                  have htk : tg.take ((lstatOf nb).size + 1) = tg := by
                    apply List.take_of_length_le
                    simp only [List.length_take] at hsz
                    omega
                  rw [htk]
                  have g3 : Good (after (after w1 pre pre) pre3 pre3) := g1
                  obtain ⟨r4, w4, e4, g4, l4, hl4, ol4, hr4⟩ := ih (after (after w1 pre pre) pre3 pre3) (resolvedLink (dirname path) tg) (some ((lstatOf nb).uid, (lstatOf nb).gid)) g3
                  simp only [e4, Option.bind_some]
                  have hlog4 : w4.log = w.log ++ (l1 ++ [(pre, pre)] ++ [(pre3, pre3)] ++ l4) := by rw [hl4, hlog3]; simp
                  cases r4 with
                  | error e =>
                    have hfd4 : w4.fds dirfd = some d := by rw [hr4]; exact hfd
                    rw [close_spec w4 dirfd d hfd4]
                    refine ⟨_, _, rfl, good_without g4 _ _ _, _, hlog4, only_append hon3 ol4, ?_⟩
                    show without w4.fds dirfd = w.fds
                    rw [hr4]; exact hwo
                  | ok fd4 =>
                    obtain ⟨hn4, d4, hf4, hp4⟩ := hr4
                    have hne : dirfd ≠ fd4 := by
                      rintro rfl
                      have : w1.fds dirfd = none := hn4
                      rw [hfd] at this; cases this
                    have hfd4 : w4.fds dirfd = some d := by rw [hf4]; simp only [plus, hne, if_false]; exact hfd
                    rw [close_spec w4 dirfd d hfd4]
                    refine ⟨_, _, rfl, good_without g4 _ _ _, _, hlog4, only_append hon3 ol4, ?_, d4, ?_, ?_⟩
                    · have : w1.fds fd4 = none := hn4
                      rw [hf1] at this
                      simp only [plus] at this
                      split at this
                      · cases this
                      · exact this
                    · show without w4.fds dirfd = _
                      rw [hf4]
                      show without (plus w1.fds fd4 d4) dirfd = _
                      rw [hf1, without_plus2 hn hne]
                    · have hlen3 : (after (after w1 pre pre) pre3 pre3).log.length = w1.log.length + 1 + 1 := by simp [after]
                      rw [hlen3] at hp4
                      have hpre : ∀ (k : Nat) (s : FS × FS), (after (after w1 pre pre) pre3 pre3).log[k]? = some s → w4.log[k]? = some s := by
                        intro k s hs
                        rw [hl4, List.getElem?_append_left]
                        · exact hs
                        · exact (List.getElem?_eq_some_iff.mp hs).1
                      have hW : Walked w4.log (pUid E) E.euid E.egid (w.log.length + 1) (if (dirname path).head? = some 47 then s0.1.root else E.cwd) (comps (dirname path)) d := by
                        rw [hl4]
                        exact walked_mono (walked_mono (walked_mono hw1 [(pre, pre)]) [(pre3, pre3)]) l4
                      refine .link _ path link d d4 w1.log.length (w1.log.length + 1) i i3 s0 (pre, pre) (pre3, pre3) nb n3 tg ?_ hW hlt ?_ hb1 hb2
                        ((linkRefused_iff E link nb).mp hlr) ?_ (by omega) ?_ hc1 hc2 hc3 ?_
                      · refine hpre _ _ ?_
                        simp only [after]
                        rw [List.getElem?_append_left (by simp; omega), List.getElem?_append_left hlt]; exact hs0
                      · refine hpre _ _ ?_
                        simp [after]
                      · simp only [Bool.and_eq_true, Bool.not_eq_true'] at hlk; exact hlk.2
                      · refine hpre _ _ ?_
                        simp [after]
                      · exact hp4
          | false =>
            simp only [Bool.false_eq_true, if_false]
            refine ⟨_, _, rfl, good_after g1 _ _, _, hlog, hon, hn, d, hf1, ?_⟩
            refine .here _ path link d w1.log.length i s0 (pre, pre) nb ?_ (walked_mono hw1 _) hlt (getElem?_last _ _) hb1 hb2 ((linkRefused_iff E link nb).mp hlr) ?_
            · simp only [after]; rw [List.getElem?_append_left hlt]; exact hs0
            · simp only [Bool.and_eq_false_iff, Bool.not_eq_false'] at hlk
              rcases hlk with h | h
              · exact .inr (isLink_false h)
              · exact .inl h

end SafeOpen
