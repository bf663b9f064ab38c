import Verif.Lemmas.ThreadedStack
/-! # Properties of the threaded stack under every schedule -/
namespace TStack
open TStackSpec Lin

/-- C117: whatever the number of threads, the calls they make and the way their memory accesses are interleaved, the history of
calls and returns is linearizable for a last-in first-out stack: every call looks as if it had happened at one instant between its
call and its return. In particular no pushed item is lost, duplicated or popped twice, counts are right, and a copy is a snapshot. -/
theorem C117_linearizable {α : Type} (cap : Nat) (as : List (Action α)) (s : State α) (hr : run (init cap) as = some s) :
    Linearizable TStackSpec.step ⟨[], if cap = 0 then 16 else cap⟩ s.hist := by
  obtain ⟨g, ph, σ, h⟩ := inv_run as (inv_init cap) hr
  exact ⟨g, ph, σ, h.er, h.phases, h.legal⟩

/-- C117: no schedule leads to undefined behaviour, to a mutex released by a thread that does not hold it, or to a deadlock: in every
reachable state, a thread inside a function can execute its next instruction, unless that instruction is taking a mutex that another
thread holds, and then that other thread can execute its next one. -/
theorem C117_progress {α : Type} (cap : Nat) (as : List (Action α)) (s : State α) (hr : run (init cap) as = some s)
    (t : Nat) (p : Prog α) (hp : s.th t = some p) :
    (step s (.run t)).isSome ∨
      ((∃ k, p = .lock k) ∧ ∃ u, u ≠ t ∧ s.lock = some u ∧ (step s (.run u)).isSome) := by
  obtain ⟨g, ph, σ, h⟩ := inv_run as (inv_init cap) hr
  have hold : ∀ u, s.lock = some u → (step s (.run u)).isSome := by
    intro u hu
    obtain ⟨o, q, m, _, hq, hex, _⟩ := h.held u hu
    rcases held_step hu hq hex with ⟨m', k, hst, _⟩ | ⟨_, hst⟩ <;> rw [hst] <;> rfl
  by_cases hl : s.lock = some t
  · exact Or.inl (hold t hl)
  · have ho := h.outside t hl
    cases hph : ph t with
    | idle => rw [hph, hp] at ho; simp [Outside] at ho
    | took r =>
      rw [hph, hp] at ho
      simp only [Outside, Option.some.injEq] at ho
      subst ho
      left; rw [step, hp]; rfl
    | pending o =>
      rw [hph, hp] at ho
      simp only [Outside, Option.some.injEq] at ho
      obtain ⟨k, hk, _⟩ := prog_ok o
      rw [hk] at ho
      subst ho
      cases hn : s.lock with
      | none => left; rw [step, hp]; simp [instr, hn]
      | some u =>
        right
        refine ⟨⟨k, rfl⟩, u, ?_, rfl, hold u hn⟩
        rintro rfl; exact hl hn

/-- Two threads pushing onto a stack of capacity 1 while a third pops, with the instructions interleaved around the lock: the history
has all three calls overlapping. -/
def sampleSchedule : List (Action Nat) :=
  [.call 0 (.push 5), .call 1 (.pushReport 6), .run 0, .call 2 .pop] ++ List.replicate 6 (.run 0) ++ [.run 1] ++ [.run 0] ++
    List.replicate 9 (.run 1) ++ List.replicate 7 (.run 2) ++ [.run 1]

example : ∃ s, run (init 1) sampleSchedule = some s ∧
    s.hist = [.call 0 (.push 5), .call 1 (.pushReport 6), .call 2 .pop, .ret 0 .unit, .ret 2 (.item (some 6)), .ret 1 (.num 2)] ∧
    s.mem.data = [some 5, none] := by
  exact ⟨_, rfl, rfl, rfl⟩

/-- Operations that took effect were called, returned results were taken. -/
theorem phases_called {O R : Type} {g : List (GEv O R)} {ph} (h : Phases g ph) :
    (∀ t o, ph t = .pending o → GEv.call t o ∈ g) ∧ (∀ t r, ph t = .took r → ∃ o, GEv.effect t o r ∈ g) ∧
    (∀ t o r, GEv.effect t o r ∈ g → GEv.call t o ∈ g) ∧ (∀ t r, GEv.ret t r ∈ g → ∃ o, GEv.effect t o r ∈ g) := by
  induction h with
  | start => simp
  | call t o _ _ ih =>
    obtain ⟨a, b, c, d⟩ := ih
    refine ⟨fun u o' hu => ?_, fun u r hu => ?_, fun u o' r hu => ?_, fun u r hu => ?_⟩
    · dsimp only at hu; split at hu
      · next e => subst e; cases hu; simp
      · exact List.mem_append_left _ (a u o' hu)
    · dsimp only at hu; split at hu
      · cases hu
      · obtain ⟨o', h⟩ := b u r hu; exact ⟨o', List.mem_append_left _ h⟩
    · simp at hu; exact List.mem_append_left _ (c u o' r hu)
    · simp at hu; obtain ⟨o', h⟩ := d u r hu; exact ⟨o', List.mem_append_left _ h⟩
  | effect t o r _ hp ih =>
    obtain ⟨a, b, c, d⟩ := ih
    refine ⟨fun u o' hu => ?_, fun u r' hu => ?_, fun u o' r' hu => ?_, fun u r' hu => ?_⟩
    · dsimp only at hu; split at hu
      · cases hu
      · exact List.mem_append_left _ (a u o' hu)
    · dsimp only at hu; split at hu
      · next e => subst e; cases hu; exact ⟨o, by simp⟩
      · obtain ⟨o', h⟩ := b u r' hu; exact ⟨o', List.mem_append_left _ h⟩
    · simp at hu
      rcases hu with hu | ⟨rfl, rfl, rfl⟩
      · exact List.mem_append_left _ (c u o' r' hu)
      · exact List.mem_append_left _ (a u o' hp)
    · simp at hu; obtain ⟨o', h⟩ := d u r' hu; exact ⟨o', List.mem_append_left _ h⟩
  | ret t r _ hp ih =>
    obtain ⟨a, b, c, d⟩ := ih
    refine ⟨fun u o' hu => ?_, fun u r' hu => ?_, fun u o' r' hu => ?_, fun u r' hu => ?_⟩
    · dsimp only at hu; split at hu
      · cases hu
      · exact List.mem_append_left _ (a u o' hu)
    · dsimp only at hu; split at hu
      · cases hu
      · obtain ⟨o', h⟩ := b u r' hu; exact ⟨o', List.mem_append_left _ h⟩
    · simp at hu; exact List.mem_append_left _ (c u o' r' hu)
    · simp at hu
      rcases hu with hu | ⟨rfl, rfl⟩
      · obtain ⟨o', h⟩ := d u r' hu; exact ⟨o', List.mem_append_left _ h⟩
      · obtain ⟨o', h⟩ := b u r' hp; exact ⟨o', List.mem_append_left _ h⟩

theorem mem_erase_call {O R : Type} {g : List (GEv O R)} {t o} (h : GEv.call t o ∈ g) : Ev.call t o ∈ erase g := by
  induction g with
  | nil => simp at h
  | cons e g ih =>
    rcases List.mem_cons.1 h with rfl | h'
    · simp [erase]
    · cases e <;> simp [erase, ih h']

theorem mem_of_erase_ret {O R : Type} {g : List (GEv O R)} {t r} (h : Ev.ret t r ∈ erase g) : GEv.ret t r ∈ g := by
  induction g with
  | nil => simp [erase] at h
  | cons e g ih =>
    cases e with
    | call t' o => simp [erase] at h; simp [ih h]
    | effect t' o r' => simp [erase] at h; simp [ih h]
    | ret t' r' =>
      simp [erase] at h
      rcases h with ⟨rfl, rfl⟩ | h
      · simp
      · simp [ih h]

/-- C117, spelled out: an item a pop returned was pushed by a call that had been made. -/
theorem C117_popped_was_pushed {α : Type} (cap : Nat) (as : List (Action α)) (s : State α) (hr : run (init cap) as = some s)
    (t : Nat) (x : α) (hx : Ev.ret t (.item (some x)) ∈ s.hist) :
    ∃ u, Ev.call u (.push x) ∈ s.hist ∨ Ev.call u (.pushReport x) ∈ s.hist := by
  obtain ⟨g, ph, σ, he, hp, hl⟩ := C117_linearizable cap as s hr
  have key : (∀ y ∈ σ.items, ∃ u r, GEv.effect u (.push y) r ∈ g ∨ GEv.effect u (.pushReport y) r ∈ g) ∧
      (∀ u o y, GEv.effect u o (.item (some y)) ∈ g → ∃ u r, GEv.effect u (.push y) r ∈ g ∨ GEv.effect u (.pushReport y) r ∈ g) := by
    clear hp he hx
    induction hl with
    | start => simp
    | call t o _ ih =>
      refine ⟨fun y hy => ?_, fun u o' y hy => ?_⟩
      · obtain ⟨u, r, h⟩ := ih.1 y hy; exact ⟨u, r, h.imp (List.mem_append_left _) (List.mem_append_left _)⟩
      · simp at hy; obtain ⟨u, r, h⟩ := ih.2 _ _ _ hy; exact ⟨u, r, h.imp (List.mem_append_left _) (List.mem_append_left _)⟩
    | ret t r _ ih =>
      refine ⟨fun y hy => ?_, fun u o' y hy => ?_⟩
      · obtain ⟨u, r, h⟩ := ih.1 y hy; exact ⟨u, r, h.imp (List.mem_append_left _) (List.mem_append_left _)⟩
      · simp at hy; obtain ⟨u, r, h⟩ := ih.2 _ _ _ hy; exact ⟨u, r, h.imp (List.mem_append_left _) (List.mem_append_left _)⟩
    | @effect g s' t o r _ hst ih =>
      have old : ∀ y ∈ s'.items, ∃ u r', GEv.effect u (.push y) r' ∈ g ++ [.effect t o r] ∨
          GEv.effect u (.pushReport y) r' ∈ g ++ [.effect t o r] := fun y hy => by
        obtain ⟨u, r, h⟩ := ih.1 y hy; exact ⟨u, r, h.imp (List.mem_append_left _) (List.mem_append_left _)⟩
      refine ⟨fun y hy => ?_, fun u o' y hy => ?_⟩
      · cases o with
        | push x =>
          rcases List.mem_cons.1 hy with rfl | hy
          · exact ⟨t, r, Or.inl (by simp)⟩
          · exact old y hy
        | pushReport x =>
          rcases List.mem_cons.1 hy with rfl | hy
          · exact ⟨t, r, Or.inr (by simp)⟩
          · exact old y hy
        | pop => exact old y (List.mem_of_mem_tail hy)
        | _ => exact old y hy
      · rw [List.mem_append] at hy
        rcases hy with hy | hy
        · obtain ⟨u, r, h⟩ := ih.2 _ _ _ hy; exact ⟨u, r, h.imp (List.mem_append_left _) (List.mem_append_left _)⟩
        · simp only [List.mem_singleton, GEv.effect.injEq] at hy
          obtain ⟨rfl, rfl, rfl⟩ := hy
          cases o' with
          | pop =>
            simp only [TStackSpec.step, Res.item.injEq] at hst
            exact old y (List.mem_of_mem_head? hst)
          | _ => simp [TStackSpec.step] at hst
  obtain ⟨_, _, hc, hd⟩ := phases_called hp
  rw [← he] at hx ⊢
  obtain ⟨o, ho⟩ := hd t _ (mem_of_erase_ret hx)
  obtain ⟨u, r, h | h⟩ := key.2 t o x ho
  · exact ⟨u, Or.inl (mem_erase_call (hc _ _ _ h))⟩
  · exact ⟨u, Or.inr (mem_erase_call (hc _ _ _ h))⟩

end TStack
