import Verif.Spec.KnownDirs
/-! # Property C142: the known directories -/
open KnownDirsSpec

namespace KnownDirs

/-- A history of calls: which directory was asked for, and the override at that time. -/
abbrev Call := Dir × Option Bytes

/-- The calls one after the other, by a process with one user and one home directory. -/
def run (c : Config) (uid : Nat) (home : Option Bytes) : Bufs → List Call → Option Bufs
  | b, [] => some b
  | b, (d, o) :: rest =>
    match get c ⟨uid, o, home⟩ b d with
    | none => none
    | some (b, _) => run c uid home b rest

/-- Every path that may be asked for fits. -/
def fits (c : Config) (uid : Nat) (home : Bytes) (o : Option Bytes) : Prop := ∀ d, (expected c uid home o d).length < 4096

/-- What the default buffers may hold. -/
def Good (home : Bytes) (b : Bufs) : Prop := ∀ d, b.home d = [] ∨ b.home d = under (home ++ str "/.cfagent") (sub d)

theorem homeText_eq (home : Bytes) (d : Dir) : homeText home (appendDir d) = under (home ++ str "/.cfagent") (sub d) := by
  cases d <;> simp [homeText, appendDir, under, sub, str]

theorem good_init (home : Bytes) : Good home init := fun _ => Or.inl rfl

theorem snprintf_fit {t : Bytes} (h : t.length < 4096) : snprintf pathMax t = t ∧ snprintf cfBufsize t = t := by
  constructor <;> exact List.take_of_length_le (by simp [pathMax, cfBufsize]; omega)

theorem getDefault_good {c : Config} {uid : Nat} {home : Bytes} {b : Bufs} (o : Option Bytes) (hg : Good home b) (d : Dir)
    (hf : uid ≠ 0 → (under (home ++ str "/.cfagent") (sub d)).length < 4096) :
    ∃ b' p, getDefault ⟨uid, o, some home⟩ b d = (b', some p) ∧ Good home b' ∧
      deref c ⟨uid, o, some home⟩ b' p = some (standard c uid home d) ∧
      (p = .home d ∨ p = .compiled d) := by
  unfold getDefault
  simp only
  by_cases hu : uid > 0
  · rw [if_pos hu]
    have hf := hf (by omega)
    rcases hg d with hd | hd
    · rw [if_pos hd, homeText_eq, if_neg (by simp [pathMax]; omega)]
      refine ⟨_, _, rfl, ?_, ?_, Or.inl rfl⟩
      · intro e
        by_cases he : e = d
        · subst he; right; simp [setHome, (snprintf_fit hf).1]
        · simpa [setHome, he] using hg e
      · simp [deref, setHome, (snprintf_fit hf).1, standard, show uid ≠ 0 by omega]
    · have hne : b.home d ≠ [] := by
        rw [hd]; intro hh
        have := congrArg List.length hh
        cases hs : sub d <;> simp [hs, under, str] at this
      rw [if_neg hne]
      refine ⟨_, _, rfl, hg, ?_, Or.inl rfl⟩
      simp [deref, hd, standard, show uid ≠ 0 by omega]
  · rw [if_neg hu]
    refine ⟨_, _, rfl, hg, ?_, Or.inr rfl⟩
    simp [deref, standard, show uid = 0 by omega]

theorem getPlain_good {c : Config} {uid : Nat} {home : Bytes} {b : Bufs} (o : Option Bytes) (hg : Good home b) (d : Dir)
    (hf : o = none → uid ≠ 0 → (under (home ++ str "/.cfagent") (sub d)).length < 4096) :
    ∃ b' p, getPlain ⟨uid, o, some home⟩ b d = (b', some p) ∧ Good home b' ∧
      deref c ⟨uid, o, some home⟩ b' p = some (match o with | some w => w | none => standard c uid home d) := by
  cases o with
  | some w => exact ⟨b, .environment, rfl, hg, rfl⟩
  | none =>
    obtain ⟨b', p, e1, e2, e3, -⟩ := getDefault_good (c := c) none hg d (hf rfl)
    exact ⟨b', p, e1, e2, e3⟩

theorem home_setWork (b : Bufs) (d : Dir) (t : Bytes) : (setWork b d t).home = b.home := rfl

theorem fits_default {c : Config} {uid : Nat} {home : Bytes} (hf : fits c uid home none) (d : Dir) (hd : movable d = false ∨ c d ≠ str "default") :
    uid ≠ 0 → (under (home ++ str "/.cfagent") (sub d)).length < 4096 := by
  intro hu
  have := hf d
  rwa [expected, if_neg (by rcases hd with h | h <;> simp [h]), standard, if_neg hu] at this

theorem folder_sub {d : Dir} (h : movable d = true) : sub d = some (folder d) ∧ overrideSub d = some (folder d) := by
  cases d <;> simp [movable] at h <;> exact ⟨rfl, rfl⟩

theorem getMapped_good {c : Config} {uid : Nat} {home : Bytes} {b : Bufs} (o : Option Bytes) (hg : Good home b) (d : Dir)
    (hm : movable d = true) (hf : fits c uid home o) :
    ∃ b' p, getMapped c ⟨uid, o, some home⟩ b d = some (b', some p) ∧ Good home b' ∧
      deref c ⟨uid, o, some home⟩ b' p = some (expected c uid home o d) := by
  have hs := folder_sub hm
  have hfd := hf d
  cases o with
  | some w =>
    refine ⟨_, _, rfl, fun e => hg e, ?_⟩
    simp only [expected, hs.2, under] at hfd ⊢
    simp only [deref, setWork, (snprintf_fit hfd).2, if_true]
  | none =>
    simp only [getMapped]
    by_cases hc : c d = str "default"
    · rw [if_pos hc]
      obtain ⟨b', p, e1, e2, e3⟩ := getPlain_good (c := c) none hg .work (fun _ => fits_default hf .work (Or.inl rfl))
      simp only at e3
      simp only [e1, e3]
      refine ⟨_, _, rfl, fun e => e2 e, ?_⟩
      simp only [expected, hm, hc, and_self, if_true, hs.1, under] at hfd ⊢
      simp only [deref, setWork, (snprintf_fit hfd).2, if_true]
    · rw [if_neg hc]
      obtain ⟨b', p, e1, e2, e3, -⟩ := getDefault_good (c := c) none hg d (fits_default hf d (Or.inr hc))
      refine ⟨b', p, by rw [e1], e2, ?_⟩
      rw [e3]; simp [expected, hc]

theorem get_good {c : Config} {uid : Nat} {home : Bytes} {b : Bufs} (o : Option Bytes) (hg : Good home b) (d : Dir) (hf : fits c uid home o) :
    ∃ b' p, get c ⟨uid, o, some home⟩ b d = some (b', some p) ∧ Good home b' ∧
      deref c ⟨uid, o, some home⟩ b' p = some (expected c uid home o d) := by
  have plain : ∀ d, movable d = false → overrideSub d = none →
      ∃ b' p, some (getPlain ⟨uid, o, some home⟩ b d) = some (b', some p) ∧ Good home b' ∧
        deref c ⟨uid, o, some home⟩ b' p = some (expected c uid home o d) := by
    intro d hm hs
    obtain ⟨b', p, e1, e2, e3⟩ := getPlain_good (c := c) o hg d (fun ho => fits_default (ho ▸ hf) d (Or.inl hm))
    refine ⟨b', p, by rw [e1], e2, ?_⟩
    rw [e3]
    cases o with
    | some w => simp [expected, hs, under]
    | none => simp [expected, hm]
  cases d with
  | work => exact plain _ rfl rfl
  | log => exact plain _ rfl rfl
  | pid => exact plain _ rfl rfl
  | data => exact getMapped_good o hg _ rfl hf
  | master => exact getMapped_good o hg _ rfl hf
  | input => exact getMapped_good o hg _ rfl hf
  | state => exact getMapped_good o hg _ rfl hf
  | bin =>
    simp only [get, getBin]
    cases o with
    | some w =>
      refine ⟨_, _, rfl, fun e => hg e, ?_⟩
      have := hf .bin
      simp only [expected, overrideSub, sub, under] at this ⊢
      simp only [deref, (snprintf_fit this).1]
    | none =>
      obtain ⟨b', p, e1, e2, e3, -⟩ := getDefault_good (c := c) none hg .bin (fits_default hf .bin (Or.inl rfl))
      refine ⟨b', p, by simp only [e1], e2, ?_⟩
      rw [e3]; simp [expected, movable]

theorem run_good {c : Config} {uid : Nat} {home : Bytes} : ∀ (calls : List Call) {b : Bufs}, Good home b →
    (∀ k ∈ calls, fits c uid home k.2) → ∃ b', run c uid (some home) b calls = some b' ∧ Good home b' := by
  intro calls
  induction calls with
  | nil => intro b hg _; exact ⟨b, rfl, hg⟩
  | cons k calls ih =>
    intro b hg hf
    obtain ⟨d, o⟩ := k
    obtain ⟨b1, p, e1, e2, -⟩ := get_good (c := c) o hg d (hf (d, o) (by simp))
    obtain ⟨b2, f1, f2⟩ := ih e2 (fun k hk => hf k (by simp [hk]))
    exact ⟨b2, by simp [run, e1, f1], f2⟩

/-- C142. After any history of calls, with the override variable set, changed or unset between them, each function returns a pointer to
the directory one expects (none is ever null), as long as the paths fit. -/
theorem C142_expected_directory (c : Config) (uid : Nat) (home : Bytes) (calls : List Call) (d : Dir) (o : Option Bytes)
    (hf : ∀ k ∈ calls, fits c uid home k.2) (hd : fits c uid home o) :
    ∃ b b' p, run c uid (some home) init calls = some b ∧ get c ⟨uid, o, some home⟩ b d = some (b', some p) ∧
      deref c ⟨uid, o, some home⟩ b' p = some (expected c uid home o d) := by
  obtain ⟨b, e1, e2⟩ := run_good (c := c) (uid := uid) calls (good_init home) hf
  obtain ⟨b', p, f1, -, f3⟩ := get_good (c := c) o e2 d hd
  exact ⟨b, b', p, e1, f1, f3⟩

/-- The compiled defaults of a usual build. -/
def demoCfg : Config
  | .work => str "/var/cfengine"
  | .bin => str "/var/cfengine/bin"
  | .log => str "/var/log"
  | .pid => str "/var/run"
  | _ => str "default"

example : fits demoCfg 1000 (str "/home/u") none := by intro d; cases d <;> decide +kernel
example : fits demoCfg 0 (str "/root") (some (str "/tmp/w")) := by intro d; cases d <;> decide +kernel
example : expected demoCfg 1000 (str "/home/u") none .input = str "/home/u/.cfagent/inputs" := by decide +kernel
example : expected demoCfg 0 (str "/root") none .input = str "/var/cfengine/inputs" := by decide +kernel
example : expected demoCfg 0 (str "/root") (some (str "/w")) .log = str "/w" := by decide +kernel
example : expected demoCfg 0 (str "/root") (some (str "/w")) .bin = str "/w/bin" := by decide +kernel

/-- The function that owns a buffer. -/
def owner : Loc → Option Dir
  | .home d => some d
  | .bin => some .bin
  | .work d => some d
  | _ => none

theorem getDefault_keeps (c : Config) (e : Env) (b : Bufs) (d : Dir) (p : Loc) (hp : p = .home d → b.home d ≠ []) :
    deref c e (getDefault e b d).1 p = deref c e b p := by
  unfold getDefault
  split
  · split
    · rename_i h
      have hne : p ≠ .home d := fun hh => hp hh h
      split
      · rfl
      · cases p with
        | home d' =>
          have : d' ≠ d := fun hh => hne (by rw [hh])
          split <;> simp [deref, setHome, this]
        | _ => split <;> rfl
    · rfl
  · rfl

/-- C142. What one function returned is not overwritten by a call of another one, nor by a later call of the same function that returns
the default directory: only asking for the same directory under a changed override, or a pointer into a buffer not yet filled, can see a change. -/
theorem C142_results_survive (c : Config) (e : Env) (b b' : Bufs) (d : Dir) (r : Option Loc) (p : Loc)
    (hget : get c e b d = some (b', r)) (howner : owner p ≠ some d) (hfilled : ∀ d', p = .home d' → b.home d' ≠ []) :
    deref c e b' p = deref c e b p := by
  have plain : ∀ d, deref c e (getPlain e b d).1 p = deref c e b p := by
    intro d
    unfold getPlain
    split
    · exact getDefault_keeps c e b d p (hfilled d)
    · rfl
  have mapped : ∀ d, owner p ≠ some d → getMapped c e b d = some (b', r) → deref c e b' p = deref c e b p := by
    intro d ho hm
    have hsw : ∀ (b : Bufs) t, deref c e (setWork b d t) p = deref c e b p := by
      intro b t
      cases p with
      | work d' =>
        have : d' ≠ d := fun hh => ho (by rw [hh]; rfl)
        simp [deref, setWork, this]
      | _ => rfl
    unfold getMapped at hm
    split at hm
    · simp only [Option.some.injEq, Prod.mk.injEq] at hm
      rw [← hm.1, hsw]
    · split at hm
      · split at hm
        · simp at hm
        · rename_i b1 q hq
          split at hm
          · simp at hm
          · simp only [Option.some.injEq, Prod.mk.injEq] at hm
            rw [← hm.1, hsw]
            have := plain .work
            rwa [hq] at this
      · simp only [Option.some.injEq] at hm
        have := getDefault_keeps c e b d p (hfilled d)
        rwa [hm] at this
  cases d with
  | work => simp only [get, Option.some.injEq] at hget; have := plain .work; rwa [hget] at this
  | log => simp only [get, Option.some.injEq] at hget; have := plain .log; rwa [hget] at this
  | pid => simp only [get, Option.some.injEq] at hget; have := plain .pid; rwa [hget] at this
  | bin =>
    simp only [get, Option.some.injEq, getBin] at hget
    split at hget
    · have := getDefault_keeps c e b .bin p (hfilled .bin)
      rwa [hget] at this
    · simp only [Prod.mk.injEq] at hget
      rw [← hget.1]
      cases p with
      | bin => exact absurd rfl howner
      | _ => rfl
  | data => exact mapped _ howner hget
  | master => exact mapped _ howner hget
  | input => exact mapped _ howner hget
  | state => exact mapped _ howner hget

example : owner (.work .input) ≠ some .master := by decide

/-- C142. A default directory once found stays the one returned, even if the user or the password file changes. -/
theorem C142_cached (e₁ e₂ : Env) (b b₁ : Bufs) (d : Dir) (h₁ : getDefault e₁ b d = (b₁, some (.home d))) (hu : e₂.uid > 0) :
    getDefault e₂ b₁ d = (b₁, some (.home d)) := by
  have hne : b₁.home d ≠ [] := by
    unfold getDefault at h₁
    split at h₁
    · split at h₁
      · split at h₁
        · simp at h₁
        · rename_i h _
          split at h₁
          · simp at h₁
          · rename_i hlt
            simp only [Prod.mk.injEq, and_true] at h₁
            rw [← h₁, homeText_eq]
            rw [homeText_eq] at hlt
            simp only [setHome, if_true]
            rw [(snprintf_fit (by simpa [pathMax] using hlt)).1]
            intro hh
            have := congrArg List.length hh
            cases hs : sub d <;> simp [hs, under, str] at this
      · simp only [Prod.mk.injEq, and_true] at h₁
        rw [← h₁]; assumption
    · simp at h₁
  simp [getDefault, hu, hne]

example : (getDefault ⟨1000, none, some (str "/home/u")⟩ init .work).2 = some (.home .work) := by decide +kernel

/-- A home directory that is too long. -/
def longHome : Bytes := List.replicate 4090 0x61

/-- Finding: with a path that is too long the first call returns a null pointer, as it should, but every later call returns the path cut
to 4095 bytes: another directory. -/
theorem C142_truncated_on_second_call_negated (b : Bufs) (hb : b.home .work = []) :
    (getPlain ⟨1000, none, some longHome⟩ b .work).2 = none ∧
    ∃ b' p, getPlain ⟨1000, none, some longHome⟩ (getPlain ⟨1000, none, some longHome⟩ b .work).1 .work = (b', some p) ∧
      deref demoCfg ⟨1000, none, some longHome⟩ b' p = some (longHome ++ str "/.cfa") := by
  have hl : (homeText longHome (appendDir .work)).length = 4099 := by
    simp only [homeText, appendDir, List.length_append, longHome, List.length_replicate]
    decide +kernel
  have h1 : getPlain ⟨1000, none, some longHome⟩ b .work = (setHome b .work (snprintf pathMax (homeText longHome (appendDir .work))), none) := by
    simp only [getPlain, getDefault]
    rw [if_pos (by omega), if_pos hb, if_pos (by rw [hl]; decide)]
  have ht : snprintf pathMax (homeText longHome (appendDir .work)) = longHome ++ str "/.cfa" := by
    have hlen : longHome.length = 4090 := List.length_replicate ..
    simp only [snprintf, homeText, appendDir, pathMax]
    rw [List.take_append, hlen, List.take_of_length_le (by rw [hlen]; omega)]
    congr 1
  rw [h1]
  rw [ht]
  refine ⟨rfl, setHome b .work (longHome ++ str "/.cfa"), .home .work, ?_, ?_⟩
  · simp only [getPlain, getDefault]
    rw [if_pos (by omega), if_neg (by simp only [setHome, if_true]; intro hh; have := congrArg List.length hh; simp [str] at this)]
  · simp only [deref, setHome, if_true]

/-- Finding: without an entry in the password file the directories compiled as "default" are printed from a null pointer (undefined). -/
theorem C142_no_passwd_entry_negated : get demoCfg ⟨1000, none, none⟩ init .input = none := by decide +kernel

/-- Finding: an override that is too long is cut in silence. -/
theorem C142_override_cut_negated : ∃ b p, get demoCfg ⟨0, some longHome, none⟩ init .master = some (b, some p) ∧
    deref demoCfg ⟨0, some longHome, none⟩ b p = some (longHome ++ str "/mast") := by
  refine ⟨_, _, rfl, ?_⟩
  have hlen : longHome.length = 4090 := List.length_replicate ..
  simp only [deref, setWork, if_true, snprintf, cfBufsize, List.append_assoc]
  rw [List.take_append, hlen, List.take_of_length_le (by rw [hlen]; omega)]
  congr 2

end KnownDirs
