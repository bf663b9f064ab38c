import Verif.Spec.FileLock
/-! # File locks: mutual exclusion -/
namespace FileLock
open FileLockSpec (holds)

structure Inv (s : State) (tr : List (Nat × Ev)) : Prop where
  opened : ∀ p h n, (s.proc p).handle h = some n → ∃ fd, (s.proc p).find n = some fd
  distinct : ∀ p g h f, (s.proc p).fileOf g = some f → (s.proc p).fileOf h = some f → g = h
  locks : ∀ p f k, (p, k) ∈ s.lock f ↔ ∃ h, holds p h tr = some (f, k)
  file : ∀ p h f k, holds p h tr = some (f, k) → (s.proc p).fileOf h = some f
  excl : ∀ p q f k, (p, Kind.ex) ∈ s.lock f → (q, k) ∈ s.lock f → p = q
  pend : ∀ p d, (s.proc p).pc = some d → (s.proc p).handle d.h = some d.fd ∧ (d.path = true → holds p d.h tr = none)

theorem inv_init : Inv init [] := by
  refine ⟨?_, ?_, ?_, ?_, ?_, ?_⟩ <;> simp [init, holds, Proc.fileOf]

theorem fileOf_congr {x y : Proc} {h : Nat} (h1 : x.handle h = y.handle h) (h2 : ∀ n, x.handle h = some n → x.find n = y.find n) : x.fileOf h = y.fileOf h := by
  unfold Proc.fileOf
  rw [← h1]
  cases hx : x.handle h with
  | none => rfl
  | some n => simp [h2 n hx]

theorem find_filter {x : Proc} {n m : Nat} (h : m ≠ n) (hd : Nat → Option Nat) (pc : Option Pending) :
    (Proc.find ⟨x.fds.filter (fun d => d.num != n), hd, pc⟩ m) = x.find m := by
  unfold Proc.find
  simp only
  induction x.fds with
  | nil => rfl
  | cons d l ih =>
    by_cases hd : d.num = n
    · have : ¬ n = m := fun e => h e.symm
      simp [List.filter_cons, List.find?_cons, hd, ih, this]
    · simp [List.filter_cons, List.find?_cons, hd, ih]

theorem fileOf_some {x : Proc} {h f : Nat} : x.fileOf h = some f ↔ ∃ n fd, x.handle h = some n ∧ x.find n = some fd ∧ fd.file = f := by
  unfold Proc.fileOf
  cases hx : x.handle h with
  | none => simp
  | some n => cases hf : x.find n <;> simp [hf]

/-- Steps that leave the descriptors, handles and locks of everyone alone. -/
theorem Inv.same {s s' : State} {tr tr' : List (Nat × Ev)} (i : Inv s tr) (hl : s'.lock = s.lock) (hh : ∀ p, (s'.proc p).handle = (s.proc p).handle)
    (hf : ∀ p n, (s'.proc p).find n = (s.proc p).find n) (ht : ∀ p h, holds p h tr' = holds p h tr)
    (hpc : ∀ p d, (s'.proc p).pc = some d → (s.proc p).pc = some d ∨ ((s.proc p).handle d.h = some d.fd ∧ d.path = false)) : Inv s' tr' := by
  have hfo : ∀ p h, (s'.proc p).fileOf h = (s.proc p).fileOf h := fun p h => fileOf_congr (by rw [hh]) (fun n _ => hf p n)
  refine ⟨?_, ?_, ?_, ?_, ?_, ?_⟩
  · intro p h n hn; rw [hh] at hn; rw [hf]; exact i.opened p h n hn
  · intro p g h f h1 h2; rw [hfo] at h1 h2; exact i.distinct p g h f h1 h2
  · intro p f k; rw [hl]; simp only [ht]; exact i.locks p f k
  · intro p h f k h1; rw [ht] at h1; rw [hfo]; exact i.file p h f k h1
  · intro p q f k; rw [hl]; exact i.excl p q f k
  · intro p d hd
    rw [hh, ht]
    rcases hpc p d hd with h | ⟨h1, h2⟩
    · exact i.pend p d h
    · exact ⟨h1, by rw [h2]; intro h; cases h⟩

theorem holds_other {p q h : Nat} {e : Ev} {tr : List (Nat × Ev)} (hq : q ≠ p) : holds p h ((q, e) :: tr) = holds p h tr := by
  simp [holds, hq]

theorem conflict_false {l : List (Nat × Kind)} {p : Nat} {k : Kind} (h : conflict l p k = false) {q : Nat} {k' : Kind} (hm : (q, k') ∈ l) (hq : q ≠ p) :
    k ≠ .ex ∧ k' ≠ .ex := by
  rw [conflict, List.any_eq_false] at h
  have := h (q, k') hm
  simp [hq] at this
  exact this

theorem conflict_true {l : List (Nat × Kind)} {p : Nat} {k : Kind} : conflict l p k = true ↔ ∃ q k', (q, k') ∈ l ∧ q ≠ p ∧ (k = .ex ∨ k' = .ex) := by
  rw [conflict, List.any_eq_true]
  constructor
  · rintro ⟨⟨q, k'⟩, h1, h2⟩
    simp at h2
    exact ⟨q, k', h1, h2⟩
  · rintro ⟨q, k', h1, h2, h3⟩
    exact ⟨(q, k'), h1, by simp [h2, h3]⟩

theorem mem_release {l : List (Nat × Kind)} {p q : Nat} {k : Kind} : (q, k) ∈ release l p ↔ (q, k) ∈ l ∧ q ≠ p := by
  simp [release]

theorem mem_grant {l : List (Nat × Kind)} {p q : Nat} {k k' : Kind} : (q, k') ∈ grant l p k ↔ (q = p ∧ k' = k) ∨ ((q, k') ∈ l ∧ q ≠ p) := by
  simp [grant]

/-- The history after a step. -/
def push (p : Nat) (e : Option Ev) (tr : List (Nat × Ev)) : List (Nat × Ev) := match e with | none => tr | some e => (p, e) :: tr

theorem setProc_self {s : State} {p : Nat} {x : Proc} : (s.setProc p x).proc p = x := by simp [State.setProc]
theorem setProc_ne {s : State} {p q : Nat} {x : Proc} (h : q ≠ p) : (s.setProc p x).proc q = s.proc q := by simp [State.setProc, h]

theorem inv_crash {s : State} {tr : List (Nat × Ev)} (i : Inv s tr) (p : Nat) :
    Inv { lock := fun f => release (s.lock f) p, proc := fun q => if q = p then ⟨[], fun _ => none, none⟩ else s.proc q } ((p, .crash) :: tr) := by
  have hp : ∀ h, holds p h ((p, .crash) :: tr) = none := by intro h; simp [holds]
  refine ⟨?_, ?_, ?_, ?_, ?_, ?_⟩
  · intro q h n hn
    by_cases hq : q = p
    · simp [hq] at hn
    · simp only [if_neg hq] at hn ⊢; exact i.opened q h n hn
  · intro q g h f h1 h2
    by_cases hq : q = p
    · simp [hq, Proc.fileOf] at h1
    · simp only [if_neg hq] at h1 h2; exact i.distinct q g h f h1 h2
  · intro q f k
    simp only [mem_release]
    by_cases hq : q = p
    · subst hq; simp [hp]
    · rw [i.locks]; simp only [holds_other (Ne.symm hq)]; simp [hq]
  · intro q h f k h1
    by_cases hq : q = p
    · subst hq; rw [hp] at h1; cases h1
    · rw [holds_other (Ne.symm hq)] at h1; simp only [if_neg hq]; exact i.file q h f k h1
  · intro q r f k h1 h2
    simp only [mem_release] at h1 h2
    exact i.excl q r f k h1.1 h2.1
  · intro q d hd
    by_cases hq : q = p
    · simp [hq] at hd
    · simp only [if_neg hq] at hd ⊢; rw [holds_other (Ne.symm hq)]; exact i.pend q d hd

/-- A process that gains a `FileLock` for a file it has no other for. -/
theorem inv_gain {s s' : State} {tr tr' : List (Nat × Ev)} (i : Inv s tr) (p h f : Nat) (hnone : (s.proc p).handle h = none) (hfree : ∀ g, (s.proc p).fileOf g ≠ some f)
    (hl : s'.lock = s.lock) (ht : ∀ q g, holds q g tr' = holds q g tr) (hother : ∀ q, q ≠ p → s'.proc q = s.proc q)
    (hh : ∀ g, g ≠ h → (s'.proc p).handle g = (s.proc p).handle g) (hf : ∀ n fd, (s.proc p).find n = some fd → (s'.proc p).find n = some fd)
    (hnew : (s'.proc p).fileOf h = some f)
    (hpc : ∀ d, (s'.proc p).pc = some d → d.h = h ∧ (s'.proc p).handle h = some d.fd) : Inv s' tr' := by
  have hfo : ∀ g, g ≠ h → (s'.proc p).fileOf g = (s.proc p).fileOf g := by
    intro g hg
    refine fileOf_congr (hh g hg) (fun n hn => ?_)
    rw [hh g hg] at hn
    obtain ⟨fd, hfd⟩ := i.opened p g n hn
    rw [hfd, hf n fd hfd]
  have hno : ∀ k, holds p h tr ≠ some k := by
    intro k hk
    have := i.file p h k.1 k.2 hk
    simp [Proc.fileOf, hnone] at this
  refine ⟨?_, ?_, ?_, ?_, ?_, ?_⟩
  · intro q g n hn
    by_cases hq : q = p
    · subst hq
      by_cases hg : g = h
      · subst hg
        obtain ⟨n', fd, h1, h2, _⟩ := fileOf_some.1 hnew
        rw [h1] at hn; cases hn; exact ⟨fd, h2⟩
      · rw [hh g hg] at hn
        obtain ⟨fd, hfd⟩ := i.opened q g n hn
        exact ⟨fd, hf n fd hfd⟩
    · rw [hother q hq] at hn ⊢; exact i.opened q g n hn
  · intro q g g' f' h1 h2
    by_cases hq : q = p
    · subst hq
      by_cases hg : g = h
      · by_cases hg' : g' = h
        · rw [hg, hg']
        · rw [hg, hnew] at h1; cases h1; rw [hfo g' hg'] at h2; exact absurd h2 (hfree g')
      · by_cases hg' : g' = h
        · rw [hg', hnew] at h2; cases h2; rw [hfo g hg] at h1; exact absurd h1 (hfree g)
        · rw [hfo g hg] at h1; rw [hfo g' hg'] at h2; exact i.distinct q g g' f' h1 h2
    · rw [hother q hq] at h1 h2; exact i.distinct q g g' f' h1 h2
  · intro q f' k; rw [hl]; simp only [ht]; exact i.locks q f' k
  · intro q g f' k h1
    rw [ht] at h1
    by_cases hq : q = p
    · subst hq
      by_cases hg : g = h
      · subst hg; exact absurd h1 (hno _)
      · rw [hfo g hg]; exact i.file q g f' k h1
    · rw [hother q hq]; exact i.file q g f' k h1
  · intro q r f' k; rw [hl]; exact i.excl q r f' k
  · intro q d hd
    by_cases hq : q = p
    · subst hq
      obtain ⟨h1, h2⟩ := hpc d hd
      rw [h1, ht]
      refine ⟨h2, fun _ => ?_⟩
      cases hx : holds q h tr with
      | none => rfl
      | some k => exact absurd hx (hno k)
    · rw [hother q hq] at hd ⊢; rw [ht]; exact i.pend q d hd

/-- A process that closes the descriptor `n` of file `f`, with `drop` the only `FileLock` for that file, if any; what others hold is untouched. -/
theorem inv_close {s s' : State} {tr tr' : List (Nat × Ev)} (i : Inv s tr) (p f : Nat) (drop : Option Nat)
    (hdrop : ∀ g, (s.proc p).fileOf g = some f → drop = some g)
    (hl : ∀ g, s'.lock g = if g = f then release (s.lock f) p else s.lock g)
    (hother : ∀ q, q ≠ p → s'.proc q = s.proc q) (hto : ∀ q g, q ≠ p → holds q g tr' = holds q g tr)
    (htp : ∀ g, holds p g tr' = if drop = some g then none else holds p g tr)
    (hdf : ∀ g, drop = some g → (s.proc p).fileOf g = some f)
    (hkeep : ∀ g, drop ≠ some g → (s'.proc p).handle g = (s.proc p).handle g)
    (hfind : ∀ g n, drop ≠ some g → (s.proc p).handle g = some n → (s'.proc p).find n = (s.proc p).find n)
    (hgone : ∀ g n, drop = some g → (s'.proc p).handle g = some n → (s'.proc p).find n = (s.proc p).find n ∧ (s.proc p).handle g = some n)
    (hpc : (s'.proc p).pc = none) : Inv s' tr' := by
  have hfo : ∀ g, drop ≠ some g → (s'.proc p).fileOf g = (s.proc p).fileOf g := by
    intro g hg
    refine fileOf_congr (hkeep g hg) (fun n hn => ?_)
    rw [hkeep g hg] at hn
    exact hfind g n hg hn
  have hfo' : ∀ g g', (s'.proc p).fileOf g = some g' → (s.proc p).fileOf g = some g' := by
    intro g g' h
    by_cases hg : drop = some g
    · obtain ⟨n, fd, h1, h2, h3⟩ := fileOf_some.1 h
      obtain ⟨h4, h5⟩ := hgone g n hg h1
      exact fileOf_some.2 ⟨n, fd, h5, by rw [← h4]; exact h2, h3⟩
    · rw [← hfo g hg]; exact h
  refine ⟨?_, ?_, ?_, ?_, ?_, ?_⟩
  · intro q g n hn
    by_cases hq : q = p
    · subst hq
      by_cases hg : drop = some g
      · obtain ⟨h4, h5⟩ := hgone g n hg hn
        rw [h4]; exact i.opened q g n h5
      · rw [hkeep g hg] at hn; rw [hfind g n hg hn]; exact i.opened q g n hn
    · rw [hother q hq] at hn ⊢; exact i.opened q g n hn
  · intro q g g' f' h1 h2
    by_cases hq : q = p
    · subst hq; exact i.distinct q g g' f' (hfo' _ _ h1) (hfo' _ _ h2)
    · rw [hother q hq] at h1 h2; exact i.distinct q g g' f' h1 h2
  · intro q f' k
    rw [hl]
    by_cases hq : q = p
    · subst hq
      simp only [htp]
      by_cases hf : f' = f
      · subst hf
        rw [if_pos rfl, mem_release]
        constructor
        · intro h; exact absurd rfl h.2
        · rintro ⟨g, hg⟩
          split at hg
          · cases hg
          · rename_i hd; exact absurd (hdrop g (i.file q g _ k hg)) hd
      · rw [if_neg hf, i.locks]
        constructor
        · rintro ⟨g, hg⟩
          refine ⟨g, ?_⟩
          rw [if_neg]
          · exact hg
          · intro hd; have := hdf g hd; rw [i.file q g _ k hg] at this; cases this; exact hf rfl
        · rintro ⟨g, hg⟩
          split at hg
          · cases hg
          · exact ⟨g, hg⟩
    · simp only [hto q _ hq]
      rw [← i.locks]
      split
      · rename_i hf; subst hf; rw [mem_release]; simp [hq]
      · rfl
  · intro q g f' k h1
    by_cases hq : q = p
    · subst hq
      rw [htp] at h1
      split at h1
      · cases h1
      · rename_i hd; rw [hfo g hd]; exact i.file q g f' k h1
    · rw [hto q g hq] at h1; rw [hother q hq]; exact i.file q g f' k h1
  · intro q r f' k h1 h2
    rw [hl] at h1 h2
    split at h1
    · rename_i hf; subst hf; rw [if_pos rfl] at h2; rw [mem_release] at h1 h2; exact i.excl q r f' k h1.1 h2.1
    · rename_i hf; rw [if_neg hf] at h2; exact i.excl q r f' k h1 h2
  · intro q d hd
    by_cases hq : q = p
    · subst hq; rw [hpc] at hd; cases hd
    · rw [hother q hq] at hd ⊢; rw [hto q _ hq]; exact i.pend q d hd

/-- Opening a file by other means. -/
theorem inv_open {s : State} {tr : List (Nat × Ev)} (i : Inv s tr) (p : Nat) (fd : Fd) (hfree : (s.proc p).find fd.num = none) (hpc : (s.proc p).pc = none) :
    Inv (s.setProc p { (s.proc p) with fds := fd :: (s.proc p).fds }) ((p, .other) :: tr) := by
  have ht : ∀ q g, holds q g ((p, .other) :: tr) = holds q g tr := by intro q g; simp only [holds]; split <;> rfl
  have hfind : ∀ m, m ≠ fd.num → Proc.find { (s.proc p) with fds := fd :: (s.proc p).fds } m = (s.proc p).find m := by
    intro m hm
    simp only [Proc.find, List.find?_cons]
    rw [show (fd.num == m) = false by simp [Ne.symm hm]]
  have hne : ∀ g n, (s.proc p).handle g = some n → n ≠ fd.num := by
    intro g n hn e
    obtain ⟨x, hx⟩ := i.opened p g n hn
    rw [e, hfree] at hx; cases hx
  have hfo : ∀ q g, ((s.setProc p { (s.proc p) with fds := fd :: (s.proc p).fds }).proc q).fileOf g = (s.proc q).fileOf g := by
    intro q g
    by_cases hq : q = p
    · subst hq; rw [setProc_self]; exact fileOf_congr rfl (fun n hn => hfind n (hne g n hn))
    · rw [setProc_ne hq]
  refine ⟨?_, ?_, ?_, ?_, i.excl, ?_⟩
  · intro q g n hn
    by_cases hq : q = p
    · subst hq; rw [setProc_self] at hn ⊢; rw [hfind n (hne g n hn)]; exact i.opened q g n hn
    · rw [setProc_ne hq] at hn ⊢; exact i.opened q g n hn
  · intro q g h f h1 h2; rw [hfo] at h1 h2; exact i.distinct q g h f h1 h2
  · intro q f k; simp only [ht]; exact i.locks q f k
  · intro q g f k h1; rw [ht] at h1; rw [hfo]; exact i.file q g f k h1
  · intro q d hd
    by_cases hq : q = p
    · subst hq; rw [setProc_self] at hd; simp [hpc] at hd
    · rw [setProc_ne hq] at hd ⊢; rw [ht]; exact i.pend q d hd

/-- A failed attempt: the call ends, `…FileLockPath` forgets its descriptor. -/
theorem inv_fail {s : State} {tr : List (Nat × Ev)} (i : Inv s tr) (p f : Nat) (d : Pending) (r : Int) (hr : r ≠ 0) (hd : (s.proc p).pc = some d) :
    Inv (s.setProc p (if d.path && r != 0 then { (s.proc p) with pc := none, handle := fun h => if h = d.h then none else (s.proc p).handle h } else { (s.proc p) with pc := none }))
      ((p, .lock d.h f d.kind r) :: tr) := by
  have ht : ∀ q g, holds q g ((p, .lock d.h f d.kind r) :: tr) = holds q g tr := by
    intro q g; simp only [holds, hr, and_false, if_false]; split <;> rfl
  by_cases hp : d.path = true
  · have hno := (i.pend p d hd).2 hp
    have hc : (d.path && r != 0) = true := by simp [hp, hr]
    simp only [hc, if_true]
    have hfo : ∀ g f', Proc.fileOf { (s.proc p) with pc := none, handle := fun h => if h = d.h then none else (s.proc p).handle h } g = some f' →
        (s.proc p).fileOf g = some f' := by
      intro g f' h
      obtain ⟨n, fd, h1, h2, h3⟩ := fileOf_some.1 h
      simp only at h1
      split at h1
      · cases h1
      · exact fileOf_some.2 ⟨n, fd, h1, h2, h3⟩
    refine ⟨?_, ?_, ?_, ?_, ?_, ?_⟩
    · intro q g n hn
      by_cases hq : q = p
      · subst hq
        rw [setProc_self] at hn ⊢
        simp only at hn
        split at hn
        · cases hn
        · exact i.opened q g n hn
      · rw [setProc_ne hq] at hn ⊢; exact i.opened q g n hn
    · intro q g h f' h1 h2
      by_cases hq : q = p
      · subst hq
        rw [setProc_self] at h1 h2
        exact i.distinct q g h f' (hfo _ _ h1) (hfo _ _ h2)
      · rw [setProc_ne hq] at h1 h2; exact i.distinct q g h f' h1 h2
    · intro q f' k; simp only [ht]; exact i.locks q f' k
    · intro q g f' k h1
      rw [ht] at h1
      by_cases hq : q = p
      · subst hq
        rw [setProc_self]
        have hg : g ≠ d.h := by intro e; rw [e, hno] at h1; cases h1
        have := i.file q g f' k h1
        obtain ⟨n, fd, g1, g2, g3⟩ := fileOf_some.1 this
        exact fileOf_some.2 ⟨n, fd, by simp only [if_neg hg]; exact g1, g2, g3⟩
      · rw [setProc_ne hq]; exact i.file q g f' k h1
    · exact i.excl
    · intro q d' hd'
      by_cases hq : q = p
      · subst hq; rw [setProc_self] at hd'; cases hd'
      · rw [setProc_ne hq] at hd' ⊢; rw [ht]; exact i.pend q d' hd'
  · have hc : (d.path && r != 0) = false := by simp [hp]
    simp only [hc, Bool.false_eq_true, if_false]
    refine i.same rfl ?_ ?_ ht ?_
    · intro q; by_cases hq : q = p
      · subst hq; rw [setProc_self]
      · rw [setProc_ne hq]
    · intro q n; by_cases hq : q = p
      · subst hq; rw [setProc_self]; rfl
      · rw [setProc_ne hq]
    · intro q d' hd'
      by_cases hq : q = p
      · subst hq; rw [setProc_self] at hd'; cases hd'
      · rw [setProc_ne hq] at hd'; exact .inl hd'

/-- A granted lock. -/
theorem inv_grant {s : State} {tr : List (Nat × Ev)} (i : Inv s tr) (p : Nat) (d : Pending) (fd : Fd) (hd : (s.proc p).pc = some d) (hfd : (s.proc p).find d.fd = some fd)
    (hc : conflict (s.lock fd.file) p d.kind = false) :
    Inv ((s.setLock fd.file (grant (s.lock fd.file) p d.kind)).setProc p { (s.proc p) with pc := none }) ((p, .lock d.h fd.file d.kind 0) :: tr) := by
  have hfo : (s.proc p).fileOf d.h = some fd.file := fileOf_some.2 ⟨d.fd, fd, (i.pend p d hd).1, hfd, rfl⟩
  have hp : ∀ q, (((s.setLock fd.file (grant (s.lock fd.file) p d.kind)).setProc p { (s.proc p) with pc := none }).proc q).handle = (s.proc q).handle ∧
      (∀ n, (((s.setLock fd.file (grant (s.lock fd.file) p d.kind)).setProc p { (s.proc p) with pc := none }).proc q).find n = (s.proc q).find n) ∧
      (∀ d', (((s.setLock fd.file (grant (s.lock fd.file) p d.kind)).setProc p { (s.proc p) with pc := none }).proc q).pc = some d' → (s.proc q).pc = some d' ∧ q ≠ p) := by
    intro q
    by_cases hq : q = p
    · subst hq
      rw [setProc_self]
      exact ⟨rfl, fun _ => rfl, by intro d' h; cases h⟩
    · rw [setProc_ne hq]
      exact ⟨rfl, fun _ => rfl, fun d' h => ⟨h, hq⟩⟩
  have hl : ∀ f, ((s.setLock fd.file (grant (s.lock fd.file) p d.kind)).setProc p { (s.proc p) with pc := none }).lock f =
      if f = fd.file then grant (s.lock fd.file) p d.kind else s.lock f := fun _ => rfl
  generalize (s.setLock fd.file (grant (s.lock fd.file) p d.kind)).setProc p { (s.proc p) with pc := none } = s' at *
  have hfo' : ∀ q g, (s'.proc q).fileOf g = (s.proc q).fileOf g := fun q g => fileOf_congr (by rw [(hp q).1]) (fun n _ => (hp q).2.1 n)
  have ht : ∀ g, holds p g ((p, .lock d.h fd.file d.kind 0) :: tr) = if g = d.h then some (fd.file, d.kind) else holds p g tr := by
    intro g
    simp only [holds, if_true, and_true]
    by_cases hg : g = d.h
    · rw [if_pos hg, if_pos hg.symm]
    · rw [if_neg hg, if_neg (fun e => hg e.symm)]
  refine ⟨?_, ?_, ?_, ?_, ?_, ?_⟩
  · intro q g n hn; rw [(hp q).1] at hn; rw [(hp q).2.1]; exact i.opened q g n hn
  · intro q g h f h1 h2; rw [hfo'] at h1 h2; exact i.distinct q g h f h1 h2
  · intro q f k
    rw [hl]
    by_cases hq : q = p
    · subst hq
      simp only [ht]
      by_cases hf : f = fd.file
      · subst hf
        rw [if_pos rfl, mem_grant]
        constructor
        · rintro (⟨_, rfl⟩ | ⟨_, h⟩)
          · exact ⟨d.h, by simp⟩
          · exact absurd rfl h
        · rintro ⟨g, hg⟩
          split at hg
          · cases hg; exact .inl ⟨rfl, rfl⟩
          · rename_i hne
            exact absurd (i.distinct q g d.h _ (i.file q g _ k hg) hfo) hne
      · rw [if_neg hf, i.locks]
        constructor
        · rintro ⟨g, hg⟩
          refine ⟨g, ?_⟩
          rw [if_neg]
          · exact hg
          · intro e; rw [e] at hg; have := i.file q _ _ k hg; rw [hfo] at this; cases this; exact hf rfl
        · rintro ⟨g, hg⟩
          split at hg
          · cases hg; exact absurd rfl hf
          · exact ⟨g, hg⟩
    · simp only [holds_other (Ne.symm hq)]
      rw [← i.locks]
      split
      · rename_i hf; subst hf; rw [mem_grant]; simp [hq]
      · rfl
  · intro q g f k h1
    rw [hfo']
    by_cases hq : q = p
    · subst hq
      rw [ht] at h1
      split at h1
      · rename_i hg; cases h1; rw [hg]; exact hfo
      · exact i.file q g f k h1
    · rw [holds_other (Ne.symm hq)] at h1; exact i.file q g f k h1
  · intro q r f k h1 h2
    rw [hl] at h1 h2
    split at h1
    · rename_i hf
      subst hf
      rw [if_pos rfl] at h2
      rw [mem_grant] at h1 h2
      rcases h1 with ⟨rfl, hk⟩ | ⟨h1, hq⟩
      · rcases h2 with ⟨rfl, _⟩ | ⟨h2, hr⟩
        · rfl
        · exact absurd hk.symm (conflict_false hc h2 hr).1
      · rcases h2 with ⟨rfl, _⟩ | ⟨h2, hr⟩
        · exact absurd rfl (conflict_false hc h1 hq).2
        · exact i.excl q r _ k h1 h2
    · rename_i hf; rw [if_neg hf] at h2; exact i.excl q r f k h1 h2
  · intro q d' hd'
    obtain ⟨h1, hq⟩ := (hp q).2.2 d' hd'
    rw [(hp q).1, holds_other (Ne.symm hq)]
    exact i.pend q d' h1

theorem inv_step {s s' : State} {tr : List (Nat × Ev)} {p : Nat} {a : Act} {e : Option Ev} (i : Inv s tr) (hc : Careful (s.proc p) a) (h : step s p a = some (s', e)) :
    Inv s' (push p e tr) := by
  unfold step at h
  split at h
  · -- crash
    cases h; exact inv_crash i p
  · -- fcntl
    rename_i d r hpc
    split at h
    · rename_i s1 fd hs hfd
      have h : lockRet s1 p d fd.file r = (s', e) := Option.some.inj h
      cases r with
      | err =>
        simp only [fcntlSet] at hs
        cases hs
        cases h
        exact inv_fail i p fd.file d (-1) (by decide) hpc
      | again =>
        have hs : s1 = s := by
          simp only [fcntlSet, hfd] at hs
          split at hs
          · cases hs; rfl
          · cases hs
        subst hs
        cases h
        exact inv_fail i p fd.file d (-1) (by decide) hpc
      | eintr =>
        simp only [fcntlSet] at hs
        split at hs
        · rename_i hw
          cases hs
          simp only [lockRet, lockFdRet, hw, if_true] at h
          cases h
          exact i
        · cases hs
      | ok =>
        simp only [fcntlSet, hfd] at hs
        split at hs
        · cases hs
        · rename_i hcf
          cases hs
          simp only [Bool.or_eq_true, not_or, Bool.not_eq_true] at hcf
          have := inv_grant i p d fd hpc hfd hcf.2
          simp [lockRet, lockFdRet] at h
          obtain ⟨rfl, rfl⟩ := h
          exact this
    · cases h
  · -- lockPath
    rename_i hh f kind wait fd hpc
    simp only [lockPath] at h
    split at h
    · cases h
    · rename_i hnone
      have hnone : (s.proc p).handle hh = none := by cases hx : (s.proc p).handle hh with | none => rfl | some _ => exact absurd (by rw [hx]; simp) hnone
      split at h
      · cases h
        refine i.same rfl (fun _ => rfl) (fun _ _ => rfl) ?_ (fun q d hd => .inl hd)
        intro q g; simp only [push, holds]; split
        · rw [if_neg (by simp)]
        · rfl
      · rename_i n
        split at h
        · cases h
        · rename_i hfree
          have hfree : (s.proc p).find n = none := by cases hx : (s.proc p).find n with | none => rfl | some _ => exact absurd (by rw [hx]; simp) hfree
          cases h
          refine inv_gain i p hh f hnone hc rfl (fun _ _ => rfl) (fun q hq => setProc_ne hq) ?_ ?_ ?_ ?_
          · intro g hg; rw [setProc_self]; simp [hg]
          · intro m fd hm
            rw [setProc_self]
            have : n ≠ m := by intro e; rw [e, hm] at hfree; cases hfree
            simp only [Proc.find, List.find?_cons]
            rw [show (n == m) = false by simp [this]]
            exact hm
          · rw [setProc_self]; exact fileOf_some.2 ⟨n, ⟨n, f, kind == .ex⟩, by simp, by simp [Proc.find], rfl⟩
          · intro d hd; rw [setProc_self] at hd ⊢; cases hd; simp
  · -- lock
    rename_i hh kind wait hpc
    split at h
    · cases h
    · rename_i n hn
      cases h
      refine i.same rfl ?_ ?_ (fun _ _ => rfl) ?_
      · intro q; by_cases hq : q = p
        · subst hq; rw [setProc_self]
        · rw [setProc_ne hq]
      · intro q m; by_cases hq : q = p
        · subst hq; rw [setProc_self]; rfl
        · rw [setProc_ne hq]
      · intro q d hd
        by_cases hq : q = p
        · subst hq; rw [setProc_self] at hd; cases hd; exact .inr ⟨hn, rfl⟩
        · rw [setProc_ne hq] at hd; exact .inl hd
  · -- unlock
    rename_i hh close r hpc
    simp only [unlock] at h
    split at h
    · cases h
    · rename_i n hn
      split at h
      · cases h
      · rename_i fd hfd
        have hfo : (s.proc p).fileOf hh = some fd.file := fileOf_some.2 ⟨n, fd, hn, hfd, rfl⟩
        have hnum : fd.num = n := by simpa using List.find?_some hfd
        cases close with
        | true =>
          simp only [if_true] at h
          cases h
          refine inv_close i p fd.file (some hh) ?_ ?_ ?_ ?_ ?_ ?_ ?_ ?_ ?_ ?_
          · intro g hg; rw [i.distinct p g hh _ hg hfo]
          · intro g; rfl
          · intro q hq; simp [State.setProc, closeFd, State.setLock, hq]
          · intro q g hq; exact holds_other (Ne.symm hq)
          · intro g; simp only [push, holds, if_true, or_true, and_true, Option.some.injEq]
          · intro g hg; cases hg; exact hfo
          · intro g hg
            have : g ≠ hh := fun e => hg (by rw [e])
            simp [State.setProc, closeFd, State.setLock, this]
          · intro g m hg hm
            have hgh : g ≠ hh := fun e => hg (by rw [e])
            have hmn : m ≠ fd.num := by
              intro e
              rw [hnum] at e
              subst e
              exact hgh (i.distinct p g hh _ (fileOf_some.2 ⟨m, fd, hm, hfd, rfl⟩) hfo)
            have := find_filter (x := s.proc p) hmn (fun g => if g = hh then none else (s.proc p).handle g) (s.proc p).pc
            simpa [State.setProc, closeFd, State.setLock] using this
          · intro g m hg hm; cases hg; simp [State.setProc] at hm
          · simp [State.setProc, closeFd, State.setLock, hpc]
        | false =>
          simp only [Bool.false_eq_true, if_false] at h
          split at h
          · cases h
            refine inv_close i p fd.file (some hh) ?_ ?_ (fun _ _ => rfl) ?_ ?_ ?_ (fun _ _ => rfl) (fun _ _ _ _ => rfl) (fun _ _ _ h => ⟨rfl, h⟩) hpc
            · intro g hg; rw [i.distinct p g hh _ hg hfo]
            · intro g; rfl
            · intro q g hq; exact holds_other (Ne.symm hq)
            · intro g; simp only [push, holds, if_true, true_or, and_true, Option.some.injEq]
            · intro g hg; cases hg; exact hfo
          · cases h
            refine i.same rfl (fun _ => rfl) (fun _ _ => rfl) ?_ (fun q d hd => .inl hd)
            intro q g; simp only [push, holds]; split
            · rw [if_neg (by simp)]
            · rfl
  · -- check
    rename_i hh r hpc
    simp only [check] at h
    split at h
    · cases h
    · split at h
      · cases h
      · cases h
        refine i.same rfl (fun _ => rfl) (fun _ _ => rfl) ?_ (fun q d hd => .inl hd)
        intro q g; simp only [push, holds]; split <;> rfl
  · -- rawOpen
    rename_i n f w hpc
    split at h
    · cases h
    · rename_i hfree
      have hfree : (s.proc p).find n = none := by cases hx : (s.proc p).find n with | none => rfl | some _ => exact absurd (by rw [hx]; simp) hfree
      cases h
      refine inv_open i p ⟨n, f, w⟩ hfree hpc
  · -- rawClose
    rename_i n hpc
    split at h
    · cases h
    · rename_i fd hfd
      cases h
      have hnum : fd.num = n := by simpa using List.find?_some hfd
      have hno := hc fd hfd
      refine inv_close i p fd.file none ?_ ?_ ?_ ?_ ?_ (by intro g h; cases h) ?_ ?_ (by intro g n h; cases h) ?_
      · intro g hg; exact absurd hg (hno g)
      · intro g; rfl
      · intro q hq; simp [State.setProc, closeFd, State.setLock, hq]
      · intro q g hq; exact holds_other (Ne.symm hq)
      · intro g; simp [push, holds]
      · intro g _; simp [State.setProc, closeFd, State.setLock]
      · intro g m _ hm
        have hmn : m ≠ fd.num := by
          intro e
          rw [hnum] at e
          subst e
          exact hno g (fileOf_some.2 ⟨m, fd, hm, hfd, rfl⟩)
        have := find_filter (x := s.proc p) hmn (s.proc p).handle (s.proc p).pc
        simpa [State.setProc, closeFd, State.setLock] using this
      · simp [State.setProc, closeFd, State.setLock, hpc]
  · -- assign
    rename_i hh n hpc
    split at h
    · cases h
    · rename_i hnone
      have hnone : (s.proc p).handle hh = none := by cases hx : (s.proc p).handle hh with | none => rfl | some _ => exact absurd (by rw [hx]; simp) hnone
      cases h
      obtain ⟨fd, hfd, hfree⟩ := hc
      refine inv_gain i p hh fd.file hnone hfree rfl ?_ (fun q hq => setProc_ne hq) ?_ ?_ ?_ ?_
      · intro q g; simp only [push, holds]; split <;> rfl
      · intro g hg; rw [setProc_self]; simp [hg]
      · intro m fd hm; rw [setProc_self]; exact hm
      · rw [setProc_self]; exact fileOf_some.2 ⟨n, fd, by simp, hfd, rfl⟩
      · intro d hd; rw [setProc_self] at hd; simp [hpc] at hd
  · cases h

theorem inv_run : ∀ (acts : List (Nat × Act)) {s : State} {tr : List (Nat × Ev)}, CarefulRun acts → run acts = some (s, tr) → Inv s tr
  | [], s, tr, _, h => by cases h; exact inv_init
  | (p, a) :: rest, s, tr, hc, h => by
    rw [run] at h
    split at h
    · cases h
    · rename_i s1 tr1 h1
      have i := inv_run rest hc.1 h1
      split at h
      · cases h
      · rename_i s2 h2
        cases h
        exact inv_step i (hc.2 _ _ h1) h2
      · rename_i s2 e h2
        cases h
        exact inv_step i (hc.2 _ _ h1) h2

end FileLock

open FileLock FileLockSpec

/-- C92. Mutual exclusion between any number of processes, under every interleaving of their system calls, with interrupted, blocking and failing calls and
crashes: while a process holds an exclusive lock on a file, judged by what its calls returned, no other process holds any lock on that file, and the
process itself holds it through one `FileLock` only. Every process must use one `FileLock` per file at a time. -/
theorem C92_mutual_exclusion (acts : List (Nat × Act)) (hc : CarefulRun acts) (s : State) (tr : List (Nat × Ev)) (hr : run acts = some (s, tr))
    (p q h g f : Nat) (k : Kind) (hp : holds p h tr = some (f, .ex)) (hq : holds q g tr = some (f, k)) : p = q ∧ h = g := by
  have i := inv_run acts hc hr
  have e := i.excl p q f k ((i.locks p f .ex).2 ⟨h, hp⟩) ((i.locks q f k).2 ⟨g, hq⟩)
  subst e
  exact ⟨rfl, i.distinct p h g f (i.file p h f _ hp) (i.file p g f _ hq)⟩

/-- C92. An attempt that does not fail for another reason returns 0 exactly when no other process holds a lock that excludes it, and -1 otherwise; a waiting call
never returns -1 for that reason. -/
theorem C92_attempt (acts : List (Nat × Act)) (hc : CarefulRun acts) (s : State) (tr : List (Nat × Ev)) (hr : run acts = some (s, tr))
    (p h f : Nat) (k : Kind) (ret : Int) (r : Reply) (s' : State) (hs : step s p (.fcntl r) = some (s', some (.lock h f k ret))) (herr : r ≠ .err) :
    (ret = 0 ↔ ∀ q g k', q ≠ p → holds q g tr = some (f, k') → k = .sh ∧ k' = .sh) ∧ (ret = 0 ∨ ret = -1) ∧
    (∀ d, (s.proc p).pc = some d → d.wait = true → ret = 0) := by
  have i := inv_run acts hc hr
  cases hpc : (s.proc p).pc with
  | none => simp [step, hpc] at hs
  | some d =>
    simp only [step, hpc] at hs
    split at hs
    · rename_i s1 fd hs1 hfd
      have hs : lockRet s1 p d fd.file r = (s', some (.lock h f k ret)) := Option.some.inj hs
      have key : ∀ k, (∀ q g k', q ≠ p → holds q g tr = some (fd.file, k') → k = .sh ∧ k' = .sh) ↔ conflict (s.lock fd.file) p k = false := by
        intro k
        constructor
        · intro hall
          cases hcf : conflict (s.lock fd.file) p k with
          | false => rfl
          | true =>
            obtain ⟨q, k', h1, h2, h3⟩ := conflict_true.1 hcf
            obtain ⟨g, hg⟩ := (i.locks q fd.file k').1 h1
            obtain ⟨h4, h5⟩ := hall q g k' h2 hg
            rcases h3 with h3 | h3 <;> simp_all
        · intro hcf q g k' hq hg
          have := conflict_false hcf ((i.locks q fd.file k').2 ⟨g, hg⟩) hq
          cases k <;> cases k' <;> simp_all
      cases r with
      | err => exact absurd rfl herr
      | eintr =>
        simp only [fcntlSet] at hs1
        split at hs1
        · rename_i hw; simp [lockRet, lockFdRet, hw] at hs
        · cases hs1
      | again =>
        simp only [fcntlSet, hfd] at hs1
        split at hs1
        · rename_i hcf
          simp only [Bool.and_eq_true, Bool.not_eq_true'] at hcf
          simp [lockRet, lockFdRet] at hs
          obtain ⟨_, rfl, rfl, rfl, rfl⟩ := hs
          refine ⟨?_, .inr rfl, ?_⟩
          · rw [key, hcf.2]; simp
          · intro d' hd' hw; cases hd'; rw [hcf.1] at hw; cases hw
        · cases hs1
      | ok =>
        simp only [fcntlSet, hfd] at hs1
        split at hs1
        · cases hs1
        · rename_i hcf
          simp only [Bool.or_eq_true, not_or, Bool.not_eq_true] at hcf
          simp [lockRet, lockFdRet] at hs
          obtain ⟨_, rfl, rfl, rfl, rfl⟩ := hs
          exact ⟨by rw [key, hcf.2]; simp, .inl rfl, fun _ _ _ => rfl⟩
    · cases hs

/-- C92. No lost wake-up and no lock left behind: a call in progress through a descriptor that allows the kind of lock can always complete with 0 unless
another process holds a lock that excludes it at that moment. In particular a process that has crashed, or has unlocked, keeps nobody waiting. -/
theorem C92_progress (acts : List (Nat × Act)) (hc : CarefulRun acts) (s : State) (tr : List (Nat × Ev)) (hr : run acts = some (s, tr))
    (p : Nat) (d : Pending) (fd : Fd) (hpc : (s.proc p).pc = some d) (hfd : (s.proc p).find d.fd = some fd) (hw : d.kind = .ex → fd.w = true)
    (hfree : ∀ q g k', q ≠ p → holds q g tr = some (fd.file, k') → d.kind = .sh ∧ k' = .sh) :
    ∃ s', step s p (.fcntl .ok) = some (s', some (.lock d.h fd.file d.kind 0)) := by
  have i := inv_run acts hc hr
  have hcf : conflict (s.lock fd.file) p d.kind = false := by
    cases hcf : conflict (s.lock fd.file) p d.kind with
    | false => rfl
    | true =>
      obtain ⟨q, k', h1, h2, h3⟩ := conflict_true.1 hcf
      obtain ⟨g, hg⟩ := (i.locks q fd.file k').1 h1
      obtain ⟨h4, h5⟩ := hfree q g k' h2 hg
      rcases h3 with h3 | h3 <;> simp_all
  have hm : (d.kind == Kind.ex && !fd.w) = false := by
    cases hk : d.kind with
    | sh => rfl
    | ex => simp [hw hk]
  simp only [step, hpc, fcntlSet, hfd, hm, hcf, Bool.or_self, Bool.false_eq_true, if_false, lockRet, lockFdRet]
  exact ⟨_, rfl⟩

/-- C92. Unlocking without closing returns 0 exactly if the system took the lock away: then the process has no lock on that file any more, and the locks of
others and on other files are as before. Otherwise it returns -1 and nothing has changed. -/
theorem C92_unlock (s s' : State) (p h : Nat) (r : Reply) (ev : Option Ev) (hs : step s p (.unlock h false r) = some (s', ev)) :
    ∃ n fd, (s.proc p).handle h = some n ∧ (s.proc p).find n = some fd ∧
      ((r = .ok ∧ ev = some (.unlock h false 0) ∧ s'.proc = s.proc ∧ (∀ k, (p, k) ∉ s'.lock fd.file) ∧
          (∀ q k, q ≠ p → ((q, k) ∈ s'.lock fd.file ↔ (q, k) ∈ s.lock fd.file)) ∧ ∀ f, f ≠ fd.file → s'.lock f = s.lock f) ∨
        (r ≠ .ok ∧ ev = some (.unlock h false (-1)) ∧ s' = s)) := by
  cases hpc : (s.proc p).pc with
  | some d => simp [step, hpc] at hs
  | none =>
    simp only [step, hpc, unlock] at hs
    cases hh : (s.proc p).handle h with
    | none => simp [hh] at hs
    | some n =>
      cases hf : (s.proc p).find n with
      | none => simp [hh, hf] at hs
      | some fd =>
        simp only [hh, hf, Bool.false_eq_true, if_false] at hs
        refine ⟨n, fd, rfl, hf, ?_⟩
        by_cases hr : r = .ok
        · left
          simp only [hr, if_true, Option.some.injEq, Prod.mk.injEq] at hs
          obtain ⟨rfl, rfl⟩ := hs
          refine ⟨hr, rfl, rfl, ?_, ?_, ?_⟩
          · intro k; simp [State.setLock, release]
          · intro q k hq; simp [State.setLock, release, hq]
          · intro f hf; simp [State.setLock, hf]
        · right
          simp only [hr, if_false, Option.some.injEq, Prod.mk.injEq] at hs
          obtain ⟨rfl, rfl⟩ := hs
          exact ⟨hr, rfl, rfl⟩

/-- C92. `ExclusiveFileLockCheck` tells whether another process holds a lock on the file, and changes nothing; when the system call fails the answer is no. -/
theorem C92_check (acts : List (Nat × Act)) (hc : CarefulRun acts) (s : State) (tr : List (Nat × Ev)) (hr : run acts = some (s, tr))
    (p h f : Nat) (hf : (s.proc p).fileOf h = some f) (s' : State) (b : Bool) (r : Reply) (hs : step s p (.check h r) = some (s', some (.check h b))) :
    s' = s ∧ (r ≠ .ok → b = false) ∧ (r = .ok → (b = true ↔ ∀ q g k, q ≠ p → holds q g tr ≠ some (f, k))) := by
  have i := inv_run acts hc hr
  obtain ⟨n, fd, h1, h2, rfl⟩ := fileOf_some.1 hf
  cases hpc : (s.proc p).pc with
  | some d => simp [step, hpc] at hs
  | none =>
    simp only [step, hpc, check, h1, h2, Option.some.injEq, Prod.mk.injEq, Ev.check.injEq, true_and] at hs
    refine ⟨hs.1.symm, fun hr => by rw [← hs.2, if_neg hr], fun hr => ?_⟩
    rw [← hs.2, if_pos hr]
    simp only [Bool.not_eq_true', ← Bool.not_eq_true, conflict_true]
    constructor
    · intro hx q g k hq hg
      exact hx ⟨q, k, (i.locks q fd.file k).2 ⟨g, hg⟩, hq, .inl (by trivial)⟩
    · rintro hx ⟨q, k, g1, g2, _⟩
      obtain ⟨g, hg⟩ := (i.locks q fd.file k).1 g1
      exact hx q g k g2 hg

/-- A careful run of three processes (newest first): 2 is refused, 3 waits, is interrupted, and gets the lock when 1 crashes. -/
def C92_run : List (Nat × Act) :=
  [(3, .fcntl .ok), (1, .crash), (3, .fcntl .eintr), (3, .lockPath 0 7 .sh true (some 3)), (2, .fcntl .again), (2, .lockPath 0 7 .ex false (some 3)),
   (1, .fcntl .ok), (1, .lockPath 0 7 .ex false (some 3))]
example : ((run C92_run).map fun x => (x.2, holds 1 0 x.2, holds 2 0 x.2, holds 3 0 x.2)) =
    some ([(3, .lock 0 7 .sh 0), (1, .crash), (2, .lock 0 7 .ex (-1)), (1, .lock 0 7 .ex 0)], none, none, some (7, .sh)) := rfl
example : CarefulRun C92_run := by
  have e : ∀ x : Proc, (∀ g, x.handle g = none) → ∀ g f, x.fileOf g ≠ some f := by intro x h g f; simp [Proc.fileOf, h]
  refine ⟨⟨⟨⟨⟨⟨⟨⟨trivial, ?_⟩, ?_⟩, ?_⟩, ?_⟩, ?_⟩, ?_⟩, ?_⟩, ?_⟩ <;> intro s tr h <;> try trivial
  all_goals (injection h with h; injection h with h1 h2; subst h1; exact fun g => e _ (fun _ => rfl) g _)

/-- Finding: with two `FileLock`s for one file a process excludes nobody. Process 1 gets the exclusive lock twice; unlocking the second also drops the first, and
process 2 gets it while process 1 still holds the first. -/
theorem C92_two_locks :
    ∃ s tr, run [(2, .fcntl .ok), (2, .lockPath 0 7 .ex false (some 3)), (1, .unlock 1 true .ok), (1, .fcntl .ok), (1, .lockPath 1 7 .ex false (some 4)),
      (1, .fcntl .ok), (1, .lockPath 0 7 .ex false (some 3))] = some (s, tr) ∧ holds 1 0 tr = some (7, .ex) ∧ holds 2 0 tr = some (7, .ex) := by
  refine ⟨_, [(2, .lock 0 7 .ex 0), (1, .unlock 1 true 0), (1, .lock 1 7 .ex 0), (1, .lock 0 7 .ex 0)], rfl, rfl, rfl⟩

/-- `n` refused attempts of process 2 while process 1 holds the lock. -/
def C92_attempts : Nat → List (Nat × Act)
  | 0 => [(1, .fcntl .ok), (1, .lockPath 0 7 .ex false (some 3))]
  | n + 1 => (2, .fcntl .again) :: (2, .lockPath 0 7 .ex false (some n)) :: C92_attempts n

/-- Finding: every refused `ExclusiveFileLockPath` leaves a descriptor open that no `FileLock` refers to: after `n` of them the process has `n` descriptors more,
for every `n`. -/
theorem C92_descriptor_leak (n : Nat) : ∃ s tr, run (C92_attempts n) = some (s, tr) ∧ (s.proc 2).fds.length = n ∧ ∀ h, (s.proc 2).handle h = none := by
  suffices H : ∃ s tr, run (C92_attempts n) = some (s, tr) ∧ (s.proc 2).fds.length = n ∧ (∀ h, (s.proc 2).handle h = none) ∧ (s.proc 2).pc = none ∧
      s.lock 7 = [(1, .ex)] ∧ ∀ d ∈ (s.proc 2).fds, d.num < n by
    obtain ⟨s, tr, h1, h2, h3, _⟩ := H; exact ⟨s, tr, h1, h2, h3⟩
  induction n with
  | zero => exact ⟨_, _, rfl, rfl, fun _ => rfl, rfl, rfl, by intro d h; cases h⟩
  | succ n ih =>
    obtain ⟨s, tr, h1, h2, h3, h4, h5, h6⟩ := ih
    have hfree : (s.proc 2).find n = none := by
      rw [Proc.find, List.find?_eq_none]
      intro d hd; have := h6 d hd; simp; omega
    have e1 : step s 2 (.lockPath 0 7 .ex false (some n)) = some (s.setProc 2 ⟨⟨n, 7, true⟩ :: (s.proc 2).fds, fun g => if g = 0 then some n else (s.proc 2).handle g,
        some ⟨0, n, .ex, false, true⟩⟩, none) := by
      simp only [step, h4, lockPath, h3, hfree, ne_eq, not_true, if_false]
      rfl
    generalize hs1 : s.setProc 2 ⟨⟨n, 7, true⟩ :: (s.proc 2).fds, fun g => if g = 0 then some n else (s.proc 2).handle g, some ⟨0, n, .ex, false, true⟩⟩ = s1 at e1
    have hp1 : s1.proc 2 = ⟨⟨n, 7, true⟩ :: (s.proc 2).fds, fun g => if g = 0 then some n else (s.proc 2).handle g, some ⟨0, n, .ex, false, true⟩⟩ := by
      rw [← hs1, setProc_self]
    have hl1 : s1.lock 7 = [(1, .ex)] := by rw [← hs1]; exact h5
    have hf1 : (s1.proc 2).find n = some ⟨n, 7, true⟩ := by rw [hp1]; simp [Proc.find]
    have hpc1 : (s1.proc 2).pc = some ⟨0, n, .ex, false, true⟩ := by rw [hp1]
    have e2 : step s1 2 (.fcntl .again) = some (s1.setProc 2 { (s1.proc 2) with pc := none, handle := fun h => if h = 0 then none else (s1.proc 2).handle h },
        some (.lock 0 7 .ex (-1))) := by
      simp only [step, hpc1, fcntlSet, hf1, hl1]
      rfl
    refine ⟨s1.setProc 2 { (s1.proc 2) with pc := none, handle := fun h => if h = 0 then none else (s1.proc 2).handle h }, (2, .lock 0 7 .ex (-1)) :: tr, by simp only [C92_attempts, run, h1, e1, e2], ?_, ?_, ?_, ?_, ?_⟩
    · rw [setProc_self, hp1]; simp [h2]
    · intro h; rw [setProc_self, hp1]; simp only; split
      · rfl
      · exact h3 h
    · rw [setProc_self]
    · exact hl1
    · rw [setProc_self, hp1]
      intro d hd
      rcases List.mem_cons.mp hd with rfl | hd
      · exact Nat.lt_succ_self n
      · have := h6 d hd; omega
