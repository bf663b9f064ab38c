import Verif.Lemmas.GenericAt
/-! # C130, C131: openat, fstatat, fchownat, fchmodat and readlinkat (libcompat/generic_at.c) -/
namespace At
open AtSpec (Op Sys Ev upd)

/-- C130. Any number of threads call the five functions, in any interleaving, with any system call failing at any time, while the program opens and closes its own descriptors. The events are accepted by
the specification: every call makes the system call it stands for, once, in the directory its descriptor stands for (or the working directory), and returns its result; or it returns -1, having done nothing or
after a failure to come back to the working directory. The program's descriptors are never touched. While nobody is in a call, the working directory is the one the specification tells, and no
descriptor is open but those the program has. -/
theorem C130_accepted (cwd : Nat) (fds : Nat → Option Nat) (as : List Act) (s : St) (h : run (AtSpec.has ⟨cwd, fds, fun _ => .idle⟩) (start cwd fds) as = some s) :
    ∃ σ, AtSpec.run ⟨cwd, fds, fun _ => .idle⟩ s.log = some σ ∧ (∀ fd o, σ.fds fd = some o → s.fds fd = some o) ∧
      ((∀ t, s.th t = .idle) → s.cwd = σ.cwd ∧ s.fds = σ.fds ∧ s.lock = none) := by
  obtain ⟨σ, inv⟩ := inv_run (inv_start cwd fds) h
  refine ⟨σ, inv.acc, inv.user, fun hi => ?_⟩
  have hl : s.lock = none := by
    cases hl : s.lock with
    | none => rfl
    | some t => have := (inv.lockd t).2 hl; rw [hi t] at this; cases this
  refine ⟨inv.free hl, ?_, hl⟩
  funext fd
  cases h1 : s.fds fd with
  | some o =>
    rcases inv.cover fd o h1 with h2 | ⟨t, h2⟩
    · exact h2.symm
    · rw [hi t] at h2; cases h2
  | none =>
    cases h2 : σ.fds fd with
    | none => rfl
    | some o => rw [inv.user fd o h2] at h1; cases h1

theorem spec_cwd : ∀ {log : List Ev} {σ σ' : AtSpec.S}, AtSpec.run σ log = some σ' → (∀ t d, Ev.stuck t d ∉ log) → σ'.cwd = σ.cwd := by
  intro log
  induction log with
  | nil => intro σ σ' h _; cases h; rfl
  | cons e es ih =>
    intro σ σ' h hn
    simp only [AtSpec.run, Option.bind_eq_some_iff] at h
    obtain ⟨σ1, h1, h2⟩ := h
    rw [ih h2 fun t d hm => hn t d (.tail _ hm)]
    cases e with
    | stuck t d => exact absurd (.head _) (hn t d)
    | _ =>
      simp only [AtSpec.step] at h1
      repeat' split at h1
      all_goals first | (cases h1; rfl) | cases h1

/-- The working directory is what it was before, once everyone has returned, unless a failure to come back was reported. -/
theorem C130_home (cwd : Nat) (fds : Nat → Option Nat) (as : List Act) (s : St) (h : run (AtSpec.has ⟨cwd, fds, fun _ => .idle⟩) (start cwd fds) as = some s)
    (hn : ∀ t d, Ev.stuck t d ∉ s.log) (hi : ∀ t, s.th t = .idle) : s.cwd = cwd := by
  obtain ⟨σ, h1, _, h2⟩ := C130_accepted cwd fds as s h
  rw [(h2 hi).1, spec_cwd h1 hn]

/-- C131. No schedule blocks the functions for good: as long as a thread is in a call, some thread can make its next step, however its system calls turn out. -/
theorem C131_progress (cwd : Nat) (fds : Nat → Option Nat) (as : List Act) (s : St) (h : run (AtSpec.has ⟨cwd, fds, fun _ => .idle⟩) (start cwd fds) as = some s)
    (t : Nat) (ht : s.th t ≠ .idle) : ∃ u s', s.th u ≠ .idle ∧ step (AtSpec.has ⟨cwd, fds, fun _ => .idle⟩) s (.go u false 0 0) = some s' := by
  obtain ⟨σ, inv⟩ := inv_run (inv_start cwd fds) h
  have key : ∀ u, s.th u ≠ .idle → (s.lock = none ∨ s.lock = some u) → ∃ s', step (AtSpec.has ⟨cwd, fds, fun _ => .idle⟩) s (.go u false 0 0) = some s' := by
    intro u hu hl
    simp only [step]
    have hlk := inv.lockd u
    cases hp : s.th u with
    | idle => exact absurd hp hu
    | enter d op =>
      rw [hp] at hlk
      have : s.lock = none := by
        rcases hl with h | h
        · exact h
        · have := hlk.2 h; cases this
      cases d <;> exact ⟨_, by simp only [go, this, if_true]; rfl⟩
    | func op c =>
      have : ∃ r, perform s u op false 0 0 = some r := by
        unfold perform
        cases inner op with
        | none => exact ⟨_, rfl⟩
        | some sys => exact ⟨_, rfl⟩
      obtain ⟨r, hr⟩ := this
      cases c <;> exact ⟨_, by simp only [go, hr, Option.bind_some]; rfl⟩
    | cleanup op res => cases hc : cleanupFd op res <;> exact ⟨_, by simp only [go, hc]; rfl⟩
    | openDot d op => exact ⟨_, rfl⟩
    | fchdirTo d op c => exact ⟨_, rfl⟩
    | closeFail op c => exact ⟨_, rfl⟩
    | unlockFail op => exact ⟨_, rfl⟩
    | back op c res => exact ⟨_, rfl⟩
    | closeDot op c res b => exact ⟨_, rfl⟩
    | unlock op res b => exact ⟨_, rfl⟩
    | ret op r => exact ⟨_, rfl⟩
  cases hl : s.lock with
  | none => obtain ⟨s', h'⟩ := key t ht (.inl hl); exact ⟨t, s', ht, h'⟩
  | some u =>
    have hu : s.th u ≠ .idle := fun hh => by have := (inv.lockd u).2 hl; rw [hh] at this; cases this
    obtain ⟨s', h'⟩ := key u hu (.inr hl)
    exact ⟨u, s', hu, h'⟩

def isCall (t : Nat) : Act → Bool
  | .call u _ _ => u == t
  | _ => false
def isGo (t : Nat) : Act → Bool
  | .go u _ _ _ => u == t
  | _ => false

/-- And no call takes more than nine steps of its own thread. -/
theorem C131_nine_steps (has : List Ev → Nat → Bool) (cwd : Nat) (fds : Nat → Option Nat) (as : List Act) (s : St) (h : run has (start cwd fds) as = some s) (t : Nat) :
    (as.filter (isGo t)).length ≤ 9 * (as.filter (isCall t)).length := by
  have key : ∀ (as : List Act) (s0 s : St), run has s0 as = some s → (as.filter (isGo t)).length + rank (s.th t) ≤ 9 * (as.filter (isCall t)).length + rank (s0.th t) := by
    intro as
    induction as with
    | nil => intro s0 s h; cases h; simp
    | cons a as ih =>
      intro s0 s h
      simp only [run, Option.bind_eq_some_iff] at h
      obtain ⟨s1, h1, h2⟩ := h
      have := ih s1 s h2
      cases a with
      | call u d op =>
        simp only [step] at h1
        split at h1
        · rename_i hp
          cases h1
          by_cases hu : u = t
          · subst hu
            have hr : rank (((s0.set u (.enter d op)).say (.call u d op)).th u) = 9 := by show rank (upd s0.th u _ u) = 9; rw [upd_same]; rfl
            simp only [List.filter_cons, isGo, isCall, beq_self_eq_true, if_true, Bool.false_eq_true, if_false, List.length_cons]
            omega
          · have hr : ((s0.set u (.enter d op)).say (.call u d op)).th t = s0.th t := upd_ne _ _ (fun h => hu h.symm)
            have hb : (u == t) = false := by simp [hu]
            simp only [List.filter_cons, isGo, isCall, hb, Bool.false_eq_true, if_false]
            rw [hr] at this; exact this
        · cases h1
      | go u ok n obj =>
        obtain ⟨p', e1, e2⟩ := go_rank (show go s0 u ok n obj (s0.th u) = some s1 from h1)
        by_cases hu : u = t
        · subst hu
          rw [e1, upd_same] at this
          simp only [List.filter_cons, isGo, isCall, beq_self_eq_true, if_true, Bool.false_eq_true, if_false, List.length_cons]
          omega
        · rw [e1, upd_ne _ _ (fun h => hu h.symm)] at this
          have hb : (u == t) = false := by simp [hu]
          simp only [List.filter_cons, isGo, isCall, hb, Bool.false_eq_true, if_false]
          exact this
      | openFd fd obj =>
        simp only [step] at h1
        split at h1
        · cases h1; exact this
        · cases h1
      | closeFd fd =>
        simp only [step] at h1
        split at h1
        · cases h1; exact this
        · cases h1
  have := key as (start cwd fds) s h
  have h0 : rank ((start cwd fds).th t) = 0 := rfl
  omega

/-- Non-vacuity. The process is in directory 10 and has descriptor 3 on directory 11, descriptor 4 on directory 12. Thread 0 opens a file by descriptor 3 while thread 1 asks for the owner of a
file to be changed by descriptor 4: it waits until thread 0 has come back. Descriptor 6 is returned; descriptor 5 was used for the way back by both. -/
def demo : List Act :=
  [.call 0 (some 3) (.openat [102] true 64 420), .call 1 (some 4) (.fchownat [103] 1 1 true), .go 0 true 0 0, .go 0 true 5 0, .go 0 true 0 0, .go 0 true 6 77, .go 0 true 0 0, .go 0 true 0 0,
   .go 0 true 0 0, .go 1 true 0 0, .go 0 true 0 0, .go 1 true 5 0, .go 1 true 0 0, .closeFd 4, .go 1 true 0 0, .go 1 true 0 0, .go 1 true 0 0, .go 1 true 0 0, .go 1 true 0 0]
def demoFds : Nat → Option Nat := fun fd => if fd = 3 then some 11 else if fd = 4 then some 12 else none
example : (run (AtSpec.has ⟨10, demoFds, fun _ => .idle⟩) (start 10 demoFds) demo).map (fun s => (s.cwd, (List.range 8).map s.fds)) =
    some (10, [none, none, none, some 11, none, none, some 77, none]) := by decide +kernel
/-- While thread 0 is inside, thread 1 can not enter. -/
example : (run (AtSpec.has ⟨10, demoFds, fun _ => .idle⟩) (start 10 demoFds) (demo.take 5 ++ [.go 1 true 0 0])).isNone = true := by decide +kernel
/-- Coming back fails: the new descriptor is closed again, -1 is returned, and the process stays in directory 11. -/
example : (run (AtSpec.has ⟨10, demoFds, fun _ => .idle⟩) (start 10 demoFds)
    [.call 0 (some 3) (.openat [102] true 64 420), .go 0 true 0 0, .go 0 true 5 0, .go 0 true 0 0, .go 0 true 6 77, .go 0 false 0 0, .go 0 true 0 0, .go 0 true 0 0, .go 0 true 0 0,
     .go 0 true 0 0]).map (fun s => (s.cwd, (List.range 8).map s.fds)) = some (11, [none, none, none, some 11, some 12, none, none, none]) := by decide +kernel

end At
