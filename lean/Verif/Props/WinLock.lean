import Verif.Spec.WinLock
/-! # C160: file locks on Windows -/
namespace WinLock
open WinLockSpec

/-- The locks of a handle on a file. -/
def mine (s : State) (h f : Nat) : List Range := (s.locks f).filter fun l => l.owner == h

/-- All locks are on the one byte, belong to open `FileLock`s, are those the results tell of, and exclusive ones exclude. -/
structure Inv (s : State) (tr : List Ev) : Prop where
  byte : ∀ f, ∀ l ∈ s.locks f, l.off = intMax ∧ l.len = 1
  isOpen : ∀ f, ∀ l ∈ s.locks f, s.file l.owner = some f
  shown : ∀ h f, s.file h = some f → held h tr = (mine s h f).map fun l => (f, l.ex)
  none : ∀ h, s.file h = none → held h tr = []
  excl : ∀ f, ∀ l ∈ s.locks f, ∀ m ∈ s.locks f, l.ex = true → m.owner = l.owner

theorem mem_removeFirst {α : Type} {p : α → Bool} {x : α} {l : List α} (h : x ∈ removeFirst p l) : x ∈ l := by
  induction l with
  | nil => exact h
  | cons y l ih =>
    rw [removeFirst] at h
    split at h
    · exact List.mem_cons_of_mem _ h
    · cases h with
      | head => exact List.mem_cons_self
      | tail _ h => exact List.mem_cons_of_mem _ (ih h)

theorem filter_removeFirst {α : Type} (p q : α → Bool) (l : List α) :
    (removeFirst (fun x => q x && p x) l).filter q = removeFirst p (l.filter q) := by
  induction l with
  | nil => rfl
  | cons y l ih =>
    rw [removeFirst]
    by_cases hq : q y = true
    · rw [List.filter_cons_of_pos hq, removeFirst]
      by_cases hp : p y = true
      · simp [hp, hq]
      · rw [if_neg (by simp [hp]), if_neg hp, List.filter_cons_of_pos hq, ih]
    · rw [if_neg (by simp [hq]), List.filter_cons_of_neg hq, List.filter_cons_of_neg hq, ih]

theorem filter_removeFirst_other {α : Type} (p q : α → Bool) (l : List α) (h : ∀ x, q x = true → p x = false) : (removeFirst p l).filter q = l.filter q := by
  induction l with
  | nil => rfl
  | cons y l ih =>
    rw [removeFirst]
    by_cases hp : p y = true
    · rw [if_pos hp, List.filter_cons_of_neg]
      intro hq; rw [h y hq] at hp; cases hp
    · rw [if_neg hp, List.filter_cons, List.filter_cons, ih]

theorem map_removeFirst {α β : Type} (f : α → β) (p : β → Bool) (l : List α) : (removeFirst (fun x => p (f x)) l).map f = removeFirst p (l.map f) := by
  induction l with
  | nil => rfl
  | cons y l ih =>
    rw [removeFirst, List.map_cons, removeFirst]
    by_cases hp : p (f y) = true
    · rw [if_pos hp, if_pos hp]
    · rw [if_neg hp, if_neg hp, List.map_cons, ih]

theorem removeFirst_true {α : Type} (l : List α) : removeFirst (fun _ => true) l = l.tail := by cases l <;> rfl

theorem removeFirst_congr {α : Type} {p q : α → Bool} {l : List α} (h : ∀ x ∈ l, p x = q x) : removeFirst p l = removeFirst q l := by
  induction l with
  | nil => rfl
  | cons y l ih => rw [removeFirst, removeFirst, h y (by simp), ih (fun x hx => h x (by simp [hx]))]

theorem init_inv : Inv ⟨fun _ => [], fun _ => none⟩ [] :=
  ⟨fun _ _ h => by (cases h), fun _ _ h => by (cases h), fun _ _ h => by (cases h), fun _ _ => rfl, fun _ _ h => by (cases h)⟩

theorem less_nil : less [] = [] := rfl

/-- Taking a lock away: what `UnlockFileEx` leaves is what the caller thinks it has left. -/
theorem unlock_mine {s : State} {tr : List Ev} (i : Inv s tr) {h f : Nat} {l : List Range} (he : unlockFileEx (s.locks f) h intMax 1 = some l) :
    ((l.filter fun x => x.owner == h).map fun x => (f, x.ex)) = less ((mine s h f).map fun x => (f, x.ex)) ∧ (∀ g, g ≠ h → (l.filter fun x => x.owner == g) = mine s g f) ∧
    (∀ x ∈ l, x ∈ s.locks f) := by
  have hc : ∀ x ∈ s.locks f, (x.owner == h && x.off == intMax && x.len == 1) = (x.owner == h) := by
    intro x hx; obtain ⟨h1, h2⟩ := i.byte f x hx; simp [h1, h2]
  have hany : (s.locks f).any (fun x => x.owner == h && x.off == intMax && x.len == 1 && x.ex) = ((mine s h f).map fun x => (f, x.ex)).any (fun x => x.2) := by
    rw [Bool.eq_iff_iff, List.any_eq_true, List.any_eq_true]
    constructor
    · rintro ⟨x, hx, hp⟩
      simp only [Bool.and_eq_true] at hp
      exact ⟨(f, x.ex), List.mem_map.2 ⟨x, List.mem_filter.2 ⟨hx, hp.1.1.1⟩, rfl⟩, hp.2⟩
    · rintro ⟨y, hy, hp⟩
      obtain ⟨x, hx, rfl⟩ := List.mem_map.1 hy
      obtain ⟨h1, h2⟩ := List.mem_filter.1 hx
      exact ⟨x, h1, by rw [hc x h1]; simp only [Bool.and_eq_true]; exact ⟨h2, hp⟩⟩
  rw [unlockFileEx] at he
  simp only at he
  rw [hany] at he
  by_cases h1 : ((mine s h f).map fun x => (f, x.ex)).any (fun x => x.2) = true
  · rw [if_pos h1, Option.some.injEq] at he
    rw [removeFirst_congr (q := fun x => x.owner == h && x.ex) (fun x hx => by rw [hc x hx])] at he
    subst he
    refine ⟨?_, fun g hg => ?_, fun x hx => mem_removeFirst hx⟩
    · rw [filter_removeFirst (fun x : Range => x.ex) (fun x => x.owner == h), less, if_pos h1, ← map_removeFirst (fun x : Range => (f, x.ex)) (fun x => x.2)]
      rfl
    · refine filter_removeFirst_other _ _ _ fun x hx => ?_
      simp only [beq_iff_eq] at hx
      simp [hx, hg]
  · rw [if_neg h1] at he
    by_cases h2 : (s.locks f).any (fun x => x.owner == h && x.off == intMax && x.len == 1) = true
    · rw [if_pos h2, Option.some.injEq] at he
      rw [removeFirst_congr (q := fun x => x.owner == h && true) (fun x hx => by rw [hc x hx, Bool.and_true])] at he
      subst he
      refine ⟨?_, fun g hg => ?_, fun x hx => mem_removeFirst hx⟩
      · rw [filter_removeFirst (fun _ => true) (fun x : Range => x.owner == h), removeFirst_true, less, if_neg h1, List.map_tail]
        rfl
      · refine filter_removeFirst_other _ _ _ fun x hx => ?_
        simp only [beq_iff_eq] at hx
        simp [hx, hg]
    · rw [if_neg h2] at he; cases he

theorem granted {locks l : List Range} {h flags : Nat} (he : lockFileEx locks h flags intMax 1 = .granted l) :
    l = ⟨h, flags &&& exclusiveLock != 0, intMax, 1⟩ :: locks ∧ locks.any (conflict ⟨h, flags &&& exclusiveLock != 0, intMax, 1⟩) = false := by
  rw [lockFileEx] at he
  split at he
  · split at he <;> cases he
  · rename_i hn
    cases he
    exact ⟨rfl, by simpa using hn⟩

theorem flags_ex (ex wait : Bool) : (((if wait then lockFlags ex else lockFlags ex ||| failImmediately) &&& exclusiveLock) != 0) = ex ∧
    (((if wait then lockFlags ex else lockFlags ex ||| failImmediately) &&& failImmediately) != 0) = !wait := by cases ex <;> cases wait <;> decide

/-- A successful `LockFD` keeps the invariant. -/
theorem lockFD_inv {s s' : State} {tr : List Ev} (i : Inv s tr) {h f : Nat} (hf : s.file h = some f) {ex wait err : Bool} {r : Int}
    (he : lockFD s h f (lockFlags ex) wait err = some (s', r)) : (Inv s' (.locked h f ex r :: tr)) ∧ s'.file = s.file ∧ (r = 0 ∨ r = -1 ∧ s' = s) := by
  rw [lockFD] at he
  have fail : Inv s (.locked h f ex (-1) :: tr) := by
    refine ⟨i.byte, i.isOpen, fun g k hk => ?_, fun g hg => ?_, i.excl⟩
    · rw [held, if_neg (by simp)]; exact i.shown g k hk
    · rw [held, if_neg (by simp)]; exact i.none g hg
  split at he
  · cases he; exact ⟨fail, rfl, .inr ⟨rfl, rfl⟩⟩
  · split at he
    · rename_i l hl
      cases he
      obtain ⟨e1, e2⟩ := granted hl
      rw [(flags_ex ex wait).1] at e1 e2
      rw [List.any_eq_false] at e2
      refine ⟨⟨fun g x hx => ?_, fun g x hx => ?_, fun g k hk => ?_, fun g hg => ?_, fun g x hx y hy hex => ?_⟩, rfl, .inl rfl⟩
      · simp only [State.setLocks] at hx
        split at hx
        · rw [e1] at hx
          cases hx with
          | head => exact ⟨rfl, rfl⟩
          | tail _ hx => exact i.byte f x hx
        · exact i.byte g x hx
      · simp only [State.setLocks] at hx ⊢
        split at hx
        · rename_i hg
          subst hg
          rw [e1] at hx
          cases hx with
          | head => exact hf
          | tail _ hx => exact i.isOpen _ x hx
        · exact i.isOpen g x hx
      · have hk' : s.file g = some k := hk
        rw [held, mine]
        simp only [State.setLocks]
        by_cases hg : h = g
        · subst hg
          rw [hf, Option.some.injEq] at hk'
          subst hk'
          rw [if_pos (by simp), if_pos rfl, e1, List.filter_cons_of_pos (by simp), List.map_cons, i.shown h f hf]
          rfl
        · rw [if_neg (fun e => hg e.1), i.shown g k hk', mine]
          split
          · rename_i hkf
            rw [e1, List.filter_cons_of_neg (by simp [hg]), hkf]
          · rfl
      · have hg' : s.file g = none := hg
        rw [held, if_neg, i.none g hg']
        rintro ⟨rfl, _⟩
        rw [hf] at hg'; cases hg'
      · simp only [State.setLocks] at hx hy
        split at hx
        · rename_i hg
          rw [if_pos hg] at hy
          rw [e1] at hx hy
          have noc : ∀ z ∈ s.locks f, ¬ (ex = true ∨ (z.ex = true ∧ z.owner ≠ h)) := by
            intro z hz hh
            have := e2 z hz
            obtain ⟨b1, b2⟩ := i.byte f z hz
            refine this ?_
            rcases hh with hh | ⟨hh, hh2⟩
            · simp [conflict, overlap, b1, b2, hh]
            · simp [conflict, overlap, b1, b2, hh, hh2]
          cases hx with
          | head =>
            cases hy with
            | head => rfl
            | tail _ hy => exact absurd (.inl hex) (noc y hy)
          | tail _ hx =>
            cases hy with
            | head =>
              by_cases hxo : x.owner = h
              · exact hxo.symm
              · exact absurd (.inr ⟨hex, hxo⟩) (noc x hx)
            | tail _ hy => exact i.excl f x hx y hy hex
        · rename_i hg
          rw [if_neg hg] at hy
          exact i.excl g x hx y hy hex
    · cases he; exact ⟨fail, rfl, .inr ⟨rfl, rfl⟩⟩
    · cases he

theorem closeHandle_inv {s : State} {tr tr' : List Ev} (i : Inv s tr) {h f : Nat} (hf : s.file h = some f) (hh : held h tr' = []) (ho : ∀ g, g ≠ h → held g tr' = held g tr) :
    Inv (closeHandle s h f) tr' := by
  have hloc : ∀ g, ∀ x ∈ (closeHandle s h f).locks g, x ∈ s.locks g ∧ (g = f → x.owner ≠ h) := by
    intro g x hx
    simp only [closeHandle, State.setFile, State.setLocks] at hx
    split at hx
    · rename_i hg; subst hg
      obtain ⟨a, b⟩ := List.mem_filter.1 hx
      exact ⟨a, fun _ => by simpa using b⟩
    · rename_i hg
      exact ⟨hx, fun e => absurd e hg⟩
  refine ⟨fun g x hx => i.byte g x (hloc g x hx).1, fun g x hx => ?_, fun g k hk => ?_, fun g hg => ?_, fun g x hx y hy => i.excl g x (hloc g x hx).1 y (hloc g y hy).1⟩
  · have h1 := i.isOpen g x (hloc g x hx).1
    simp only [closeHandle, State.setFile]
    rw [if_neg]
    · exact h1
    · rintro rfl
      exact (hloc g x hx).2 (by rw [hf] at h1; simpa using h1.symm) rfl
  · simp only [closeHandle, State.setFile] at hk
    split at hk
    · cases hk
    · rename_i hgh
      have hk' : s.file g = some k := hk
      rw [ho g hgh, i.shown g k hk', mine, mine]
      simp only [closeHandle, State.setFile, State.setLocks]
      split
      · rename_i hkf; subst hkf
        rw [List.filter_filter]
        congr 1
        refine List.filter_congr fun x _ => ?_
        by_cases hx : x.owner = g
        · simp [hx, hgh]
        · simp [hx]
      · rfl
  · simp only [closeHandle, State.setFile] at hg
    by_cases hgh : g = h
    · rw [hgh, hh]
    · rw [if_neg hgh] at hg
      rw [ho g hgh]; exact i.none g hg

theorem step_inv {s s' : State} {tr : List Ev} (i : Inv s tr) {a : Act} {e : Ev} (he : step s a = some (s', e)) : Inv s' (e :: tr) := by
  cases a with
  | lock h ex wait err =>
    rw [step, lock] at he
    split at he
    · cases he
    · rename_i f hf
      rw [Option.map_eq_some_iff] at he
      obtain ⟨⟨s1, r⟩, h1, h2⟩ := he
      cases h2
      exact (lockFD_inv i hf h1).1
  | lockPath h f ex wait err =>
    rw [step, lockPath] at he
    split at he
    · cases he
    · rename_i hn
      rw [Option.map_eq_some_iff] at he
      obtain ⟨⟨s1, r⟩, h1, h2⟩ := he
      cases h2
      have hempty : mine s h f = [] := by
        rw [mine, List.filter_eq_nil_iff]
        intro x hx hx2
        have := i.isOpen f x hx
        simp only [beq_iff_eq] at hx2
        rw [hx2, hn] at this; cases this
      have i2 : Inv (s.setFile h (some f)) tr := by
        refine ⟨i.byte, fun g x hx => ?_, fun g k hk => ?_, fun g hg => ?_, i.excl⟩
        · have := i.isOpen g x hx
          simp only [State.setFile]
          rw [if_neg]
          · exact this
          · intro e; rw [e, hn] at this; cases this
        · simp only [State.setFile] at hk
          split at hk
          · rename_i hg; subst hg; cases hk
            rw [i.none g hn]
            have : mine (s.setFile g (some f)) g f = [] := hempty
            rw [this]; rfl
          · exact i.shown g k hk
        · simp only [State.setFile] at hg
          split at hg
          · cases hg
          · exact i.none g hg
      obtain ⟨i3, e3, e4⟩ := lockFD_inv i2 (by simp [State.setFile]) h1
      rcases e4 with rfl | ⟨rfl, rfl⟩
      · simpa using i3
      · rw [if_pos (show (-1 : Int) ≠ 0 by decide)]
        have e5 : (State.setFile s h (some f)).setFile h none = s := by
          cases s; simp only [State.setFile, State.mk.injEq, true_and]
          funext g
          by_cases hg : g = h
          · subst hg; simpa using hn.symm
          · simp [hg]
        rw [e5]
        refine ⟨i.byte, i.isOpen, fun g k hk => ?_, fun g hg => ?_, i.excl⟩
        · rw [held, if_neg (by simp)]; exact i.shown g k hk
        · rw [held, if_neg (by simp)]; exact i.none g hg
  | unlock h close =>
    rw [step, unlock] at he
    split at he
    · cases he
    · rename_i f hf
      have key : ∀ r, unlockFD s h f = r → Inv r.1 (.unlocked h false r.2 :: tr) ∧ r.1.file = s.file := by
        intro r hr
        rw [unlockFD] at hr
        split at hr
        · rename_i l hl
          subst hr
          obtain ⟨u1, u2, u3⟩ := unlock_mine i hl
          refine ⟨⟨fun g x hx => ?_, fun g x hx => ?_, fun g k hk => ?_, fun g hg => ?_, fun g x hx y hy => ?_⟩, rfl⟩
          · simp only [State.setLocks] at hx
            split at hx
            · exact i.byte f x (u3 x hx)
            · exact i.byte g x hx
          · simp only [State.setLocks] at hx ⊢
            split at hx
            · rename_i hg; subst hg; exact i.isOpen _ x (u3 x hx)
            · exact i.isOpen g x hx
          · have hk' : s.file g = some k := hk
            rw [held, mine]
            simp only [State.setLocks]
            by_cases hg : h = g
            · subst hg
              rw [hf, Option.some.injEq] at hk'
              subst hk'
              rw [if_pos rfl, if_neg (by simp)]
              simp only [if_true]
              rw [u1, i.shown h f hf]
            · rw [if_neg hg, i.shown g k hk', mine]
              split
              · rename_i hkf
                subst hkf
                rw [u2 g (fun e => hg e.symm)]; rfl
              · rfl
          · have hg' : s.file g = none := hg
            rw [held]
            split
            · rename_i e; subst e; rw [hf] at hg'; cases hg'
            · exact i.none g hg'
          · simp only [State.setLocks] at hx hy
            split at hx
            · rename_i hg
              rw [if_pos hg] at hy
              exact i.excl f x (u3 x hx) y (u3 y hy)
            · rename_i hg
              rw [if_neg hg] at hy
              exact i.excl g x hx y hy
        · subst hr
          refine ⟨⟨i.byte, i.isOpen, fun g k hk => ?_, fun g hg => ?_, i.excl⟩, rfl⟩
          · rw [held]
            split
            · simp only [Bool.false_eq_true, if_false]
              rw [if_neg (by decide)]; exact i.shown g k hk
            · exact i.shown g k hk
          · rw [held]
            split
            · rename_i e; subst e; rw [hf] at hg; cases hg
            · exact i.none g hg
      generalize hr : unlockFD s h f = r at he
      obtain ⟨k1, k2⟩ := key r hr
      cases close with
      | false => simp only [Bool.false_eq_true, if_false, Option.some.injEq] at he; cases he; exact k1
      | true =>
        simp only [if_true, Option.some.injEq] at he; cases he
        refine closeHandle_inv k1 (by rw [k2]; exact hf) (by simp [held]) fun g hg => ?_
        rw [held, held, if_neg (fun e => hg e.symm), if_neg (fun e => hg e.symm)]
  | check h =>
    cases he
    exact ⟨i.byte, i.isOpen, i.shown, i.none, i.excl⟩
  | gone h =>
    rw [step] at he
    split at he
    · rename_i hn
      cases he
      refine ⟨i.byte, i.isOpen, fun g k hk => ?_, fun g hg => ?_, i.excl⟩
      · rw [held, if_neg (by rintro rfl; rw [hn] at hk; cases hk)]; exact i.shown g k hk
      · rw [held]; split
        · rfl
        · exact i.none g hg
    · rename_i f hf
      cases he
      exact closeHandle_inv i hf (by simp [held]) fun g hg => by rw [held, if_neg (fun e => hg e.symm)]

theorem run_inv : ∀ (acts : List Act) (s : State) (tr : List Ev), run acts = some (s, tr) → Inv s tr := by
  intro acts
  induction acts with
  | nil => intro s tr h; cases h; exact init_inv
  | cons a acts ih =>
    intro s tr h
    rw [run, Option.bind_eq_some_iff] at h
    obtain ⟨⟨s1, tr1⟩, h1, h2⟩ := h
    rw [Option.map_eq_some_iff] at h2
    obtain ⟨⟨s2, e⟩, h3, h4⟩ := h2
    cases h4
    exact step_inv (ih s1 tr1 h1) h3

/-- **C160** In every history of calls by any number of processes: while a `FileLock` holds an exclusive lock on a file, judged by what the calls returned, no other `FileLock` (of the same or of
another process) holds any lock on it. -/
theorem C160_mutual_exclusion (acts : List Act) (s : State) (tr : List Ev) (hr : run acts = some (s, tr)) (h g f : Nat) (k : Bool)
    (hh : (f, true) ∈ held h tr) (hg : (f, k) ∈ held g tr) : g = h := by
  have i := run_inv acts s tr hr
  have find : ∀ h k, (f, k) ∈ held h tr → ∃ l ∈ s.locks f, l.owner = h ∧ l.ex = k := by
    intro h k hm
    cases hf : s.file h with
    | none => rw [i.none h hf] at hm; cases hm
    | some f' =>
      rw [i.shown h f' hf] at hm
      obtain ⟨l, hl, e⟩ := List.mem_map.1 hm
      cases e
      obtain ⟨a, b⟩ := List.mem_filter.1 hl
      exact ⟨l, a, by simpa using b, rfl⟩
  obtain ⟨l, l1, l2, l3⟩ := find h true hh
  obtain ⟨m, m1, m2, _⟩ := find g k hg
  rw [← l2, ← m2]
  exact i.excl f l l1 m m1 l3

theorem locks_held {s : State} {tr : List Ev} (i : Inv s tr) (f : Nat) (l : Range) (hl : l ∈ s.locks f) : (f, l.ex) ∈ held l.owner tr := by
  rw [i.shown l.owner f (i.isOpen f l hl)]
  exact List.mem_map.2 ⟨l, List.mem_filter.2 ⟨hl, by simp⟩, rfl⟩

theorem held_locks {s : State} {tr : List Ev} (i : Inv s tr) {h f : Nat} {k : Bool} (hm : (f, k) ∈ held h tr) : ∃ l ∈ s.locks f, l.owner = h ∧ l.ex = k := by
  cases hf : s.file h with
  | none => rw [i.none h hf] at hm; cases hm
  | some f' =>
    rw [i.shown h f' hf] at hm
    obtain ⟨l, hl, e⟩ := List.mem_map.1 hm
    cases e
    obtain ⟨a, b⟩ := List.mem_filter.1 hl
    exact ⟨l, a, by simpa using b, rfl⟩

/-- **C160** When an open `FileLock` asks for a lock and the system reports no other failure, it gets it (result 0) exactly if nothing excludes it: for a shared lock, no exclusive lock of another
`FileLock`; for an exclusive one, no lock at all, its own included. Otherwise the call returns -1 if it was not to wait, and does not return if it was. -/
theorem C160_attempt (acts : List Act) (s : State) (tr : List Ev) (hr : run acts = some (s, tr)) (h f : Nat) (hf : s.file h = some f) (ex wait : Bool) :
    let free := ∀ g k, (f, k) ∈ held g tr → ex = false ∧ (k = false ∨ g = h)
    (free → ∃ s', step s (.lock h ex wait false) = some (s', .locked h f ex 0)) ∧
    (¬ free → step s (.lock h ex wait false) = if wait then none else some (s, .locked h f ex (-1))) := by
  have i := run_inv acts s tr hr
  have key : (s.locks f).any (conflict ⟨h, ex, intMax, 1⟩) = true ↔ ¬ (∀ g k, (f, k) ∈ held g tr → ex = false ∧ (k = false ∨ g = h)) := by
    rw [List.any_eq_true]
    constructor
    · rintro ⟨l, hl, hc⟩ hn
      obtain ⟨h1, h2⟩ := hn l.owner l.ex (locks_held i f l hl)
      simp only [conflict, Bool.and_eq_true, Bool.or_eq_true, bne_iff_ne] at hc
      rcases hc.2 with hc | hc
      · rw [h1] at hc; cases hc
      · rcases h2 with h2 | h2
        · rw [h2] at hc; cases hc.1
        · exact hc.2 h2
    · intro hn
      simp only [Classical.not_forall] at hn
      obtain ⟨g, k, hm, hn⟩ := hn
      obtain ⟨l, hl, rfl, rfl⟩ := held_locks i hm
      obtain ⟨b1, b2⟩ := i.byte f l hl
      refine ⟨l, hl, ?_⟩
      cases hex : ex
      · have h3 : l.ex = true ∧ l.owner ≠ h := by
          cases hk : l.ex
          · exact absurd ⟨hex, .inl hk⟩ hn
          · exact ⟨rfl, fun e => hn ⟨hex, .inr e⟩⟩
        simp [conflict, overlap, b1, b2, h3.1, h3.2]
      · simp [conflict, overlap, b1, b2]
  intro free
  simp only [step, lock, hf, lockFD, Bool.false_eq_true, if_false, lockFileEx, (flags_ex ex wait).1, (flags_ex ex wait).2]
  constructor
  · intro hfree
    rw [if_neg (fun e => key.1 e hfree)]
    exact ⟨_, rfl⟩
  · intro hfree
    rw [if_pos (key.2 hfree)]
    cases wait <;> rfl

/-- **C160** What a `FileLock` had is free when it is closed and when its process ends. -/
theorem C160_released (acts : List Act) (s : State) (tr : List Ev) (hr : run acts = some (s, tr)) (h : Nat) (s' : State) (e : Ev)
    (hs : step s (.unlock h true) = some (s', e) ∨ step s (.gone h) = some (s', e)) : held h (e :: tr) = [] ∧ s'.file h = none ∧ ∀ f, ∀ l ∈ s'.locks f, l.owner ≠ h := by
  have i := run_inv acts s tr hr
  have hi : Inv s' (e :: tr) := by
    rcases hs with hs | hs
    · exact step_inv i hs
    · exact step_inv i hs
  have hn : s'.file h = none := by
    rcases hs with hs | hs
    · rw [step, unlock] at hs
      split at hs
      · cases hs
      · simp only [if_true, Option.some.injEq] at hs; cases hs
        simp [closeHandle, State.setFile]
    · rw [step] at hs
      split at hs
      · rename_i hn; cases hs; exact hn
      · cases hs; simp [closeHandle, State.setFile]
  refine ⟨hi.none h hn, hn, fun f l hl e => ?_⟩
  have := hi.isOpen f l hl
  rw [e, hn] at this; cases this

/-- Two processes: 1 has a shared lock, 2 a shared one too; 2 wants it exclusively and is refused; 1 unlocks and closes, 2 unlocks, and now gets it. -/
example : ∃ s, run [.lock 2 true true false, .unlock 2 false, .unlock 1 true, .lock 2 true false false, .lockPath 2 7 false false false, .lockPath 1 7 false true false] =
    some (s, [.locked 2 7 true 0, .unlocked 2 false 0, .unlocked 1 true 0, .locked 2 7 true (-1), .locked 2 7 false 0, .locked 1 7 false 0]) := ⟨_, rfl⟩

/-- Finding: a `FileLock` that already has a lock, shared or exclusive, and asks for an exclusive one, to wait for it, waits for itself for ever (with POSIX locks the call returns 0). -/
theorem C160_waits_for_itself_negated (acts : List Act) (s : State) (tr : List Ev) (hr : run acts = some (s, tr)) (h f : Nat) (k : Bool) (hh : (f, k) ∈ held h tr) :
    step s (.lock h true true false) = none := by
  have i := run_inv acts s tr hr
  obtain ⟨l, hl, ho, _⟩ := held_locks i hh
  have hf := i.isOpen f l hl
  rw [ho] at hf
  have := (C160_attempt acts s tr hr h f hf true true).2 (fun hn => by have := (hn h k hh).1; cases this)
  simpa using this

/-- Finding: `ExclusiveFileLockCheck` says that the lock cannot be had even if nobody has it, as before any lock was taken. -/
theorem C160_check_negated (acts : List Act) (s : State) (tr : List Ev) (_ : run acts = some (s, tr)) (h : Nat) : step s (.check h) = some (s, .checked h false) := rfl

end WinLock
