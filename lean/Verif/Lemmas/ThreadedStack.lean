import Verif.Model.ThreadedStack
namespace TStack
open TStackSpec Lin

/-- Running the rest of a critical section alone, up to its unlock. -/
def exec {α : Type} : Prog α → Mem α → Option (Mem α × Res α)
  | .lock _, _ => none
  | .unlock (.ret r), m => some (m, r)
  | .unlock _, _ => none
  | .rdSize k, m => exec (k m.size) m
  | .wrSize n k, m => exec k { m with size := n }
  | .rdCap k, m => exec (k m.capacity) m
  | .wrCap n k, m => exec k { m with capacity := n }
  | .rd i k, m => match m.data[i]? with
    | some v => exec (k v) m
    | none => none
  | .wr i v k, m => if i < m.data.length then exec k { m with data := m.data.set i v } else none
  | .realloc n k, m => exec k { m with data := m.data.take n ++ List.replicate (n - m.data.length) none }
  | .ret _, _ => none

/-- The structure holds this stack. -/
structure Rep {α : Type} (m : Mem α) (s : St α) : Prop where
  size : m.size = s.items.length
  cap : m.capacity = s.cap
  len : m.data.length = m.capacity
  pos : 0 < m.capacity
  le : m.size ≤ m.capacity
  cells : m.data.take m.size = s.items.reverse.map some

theorem Rep.get {α : Type} {m : Mem α} {s : St α} (h : Rep m s) {i : Nat} (hi : i < m.size) :
    m.data[i]? = (s.items.reverse.map some)[i]? := by
  rw [← h.cells, List.getElem?_take, if_pos hi]

theorem exec_readCells {α : Type} {m : Mem α} {s : St α} (h : Rep m s) (k : List (Option α) → Prog α) :
    ∀ (n i : Nat) (acc : List (Option α)), i + n = m.size → acc = ((s.items.reverse.take i).map some).reverse →
      exec (readCells n i acc k) m = exec (k (s.items.map some)) m := by
  intro n
  induction n with
  | zero =>
    intro i acc hi hacc
    rw [readCells, hacc]
    have : i = s.items.reverse.length := by rw [List.length_reverse, ← h.size]; omega
    rw [this, List.take_length, ← List.map_reverse, List.reverse_reverse]
  | succ n ih =>
    intro i acc hi hacc
    rw [readCells, exec, h.get (by omega)]
    have hlt : i < s.items.reverse.length := by rw [List.length_reverse, ← h.size]; omega
    rw [List.getElem?_map, List.getElem?_eq_getElem hlt]
    simp only [Option.map_some]
    apply ih (i + 1) _ (by omega)
    rw [List.take_add_one, List.getElem?_eq_getElem hlt, hacc]
    simp

theorem exec_expand {α : Type} {m : Mem α} {s : St α} (h : Rep m s) (k : Prog α) :
    ∃ m', exec (expand k) m = exec k m' ∧ Rep m' ⟨s.items, room s⟩ ∧ m'.size < m'.capacity := by
  rw [expand]
  simp only [exec]
  by_cases hc : m.size = m.capacity
  · rw [if_pos hc]
    simp only [exec]
    refine ⟨_, rfl, ?_, ?_⟩
    · have hp := h.pos
      have hl := h.len
      constructor
      · exact h.size
      · simp only [room, ← h.size, ← h.cap, hc, if_true]
      · simp only [List.length_append, List.length_take, List.length_replicate]; omega
      · show 0 < m.capacity * 2; omega
      · show m.size ≤ m.capacity * 2; omega
      · show List.take m.size (_ ++ _) = _
        rw [← h.cells, List.take_append_of_le_length (by rw [List.length_take]; omega), List.take_take]
        congr 1; omega
    · show m.size < m.capacity * 2
      have := h.pos; omega
  · rw [if_neg hc]
    have := h.le
    refine ⟨m, rfl, ⟨h.size, ?_, h.len, h.pos, h.le, h.cells⟩, by omega⟩
    simp only [room, ← h.size, ← h.cap, if_neg hc]

theorem exec_store {α : Type} {m : Mem α} {s : St α} (h : Rep m s) (hlt : m.size < m.capacity) (x : α) (k : Prog α) :
    ∃ m', exec (store x k) m = exec k m' ∧ Rep m' ⟨x :: s.items, s.cap⟩ := by
  rw [store]
  simp only [exec]
  rw [if_pos (by show m.size < m.data.length; rw [h.len]; exact hlt)]
  refine ⟨_, rfl, ?_⟩
  constructor
  · simp [h.size]
  · exact h.cap
  · simp [h.len]
  · exact h.pos
  · exact hlt
  · show List.take (m.size + 1) (m.data.set m.size (some x)) = _
    rw [List.take_add_one, List.take_set_of_le (Nat.le_refl _), h.cells, List.getElem?_set_self (by rw [h.len]; exact hlt)]
    simp

theorem exec_pop {α : Type} {m : Mem α} {s : St α} (h : Rep m s) (k : Option α → Prog α) :
    ∃ m', exec (pop k) m = exec (k s.items.head?) m' ∧ Rep m' ⟨s.items.tail, s.cap⟩ := by
  rw [pop]
  simp only [exec]
  by_cases hz : m.size > 0
  · rw [if_pos hz]
    have hs := h.size
    obtain ⟨items, cap⟩ := s
    cases items with
    | nil => simp at hs; omega
    | cons x xs =>
      simp only [List.length_cons] at hs
      have hg : m.data[m.size - 1]? = some (some x) := by
        rw [h.get (by omega)]
        simp only [List.reverse_cons, List.map_append, List.map_cons, List.map_nil]
        rw [List.getElem?_append_right (by simp; omega)]
        have : m.size - 1 - (List.map some xs.reverse).length = 0 := by simp; omega
        rw [this]; rfl
      simp only [exec, hg, List.head?_cons]
      have hle := h.le
      rw [if_pos (by rw [h.len]; omega)]
      refine ⟨_, rfl, ?_⟩
      constructor
      · show m.size - 1 = xs.length; omega
      · exact h.cap
      · simp [h.len]
      · exact h.pos
      · show m.size - 1 ≤ m.capacity; omega
      · show List.take (m.size - 1) (m.data.set (m.size - 1) none) = _
        rw [List.take_set_of_le (Nat.le_refl _)]
        have hc := congrArg (List.take (m.size - 1)) h.cells
        rw [List.take_take, Nat.min_eq_left (by omega)] at hc
        rw [hc]
        simp only [List.reverse_cons, List.map_append, List.map_cons, List.map_nil, List.tail_cons]
        rw [List.take_append_of_le_length (by simp; omega), List.take_of_length_le (by simp; omega)]
  · rw [if_neg hz]
    have hs := h.size
    obtain ⟨items, cap⟩ := s
    cases items with
    | nil => exact ⟨m, rfl, h⟩
    | cons x xs => simp at hs; omega

/-- Every function takes the lock first, and what follows does, alone, what the sequential stack does. -/
theorem prog_ok {α : Type} (o : Op α) : ∃ k, prog o = .lock k ∧ ∀ (m : Mem α) (s : St α), Rep m s →
    ∃ m', exec k m = some (m', (TStackSpec.step s o).2) ∧ Rep m' (TStackSpec.step s o).1 := by
  cases o with
  | push x =>
    refine ⟨_, rfl, fun m s h => ?_⟩
    obtain ⟨m1, e1, h1, hlt⟩ := exec_expand h (store x (.unlock (.ret .unit)))
    obtain ⟨m2, e2, h2⟩ := exec_store h1 hlt x (.unlock (.ret .unit))
    exact ⟨m2, by rw [e1, e2, exec]; rfl, h2⟩
  | pushReport x =>
    refine ⟨_, rfl, fun m s h => ?_⟩
    obtain ⟨m1, e1, h1, hlt⟩ := exec_expand h (store x (.rdSize fun n => .unlock (.ret (.num n))))
    obtain ⟨m2, e2, h2⟩ := exec_store h1 hlt x (.rdSize fun n => .unlock (.ret (.num n)))
    refine ⟨m2, ?_, h2⟩
    rw [e1, e2, exec, exec, h2.size]; rfl
  | pop =>
    refine ⟨_, rfl, fun m s h => ?_⟩
    obtain ⟨m1, e1, h1⟩ := exec_pop h (fun item => .unlock (.ret (.item item)))
    exact ⟨m1, by rw [e1, exec]; rfl, h1⟩
  | count =>
    refine ⟨_, rfl, fun m s h => ⟨m, ?_, h⟩⟩
    rw [exec, exec, h.size]; rfl
  | capacity =>
    refine ⟨_, rfl, fun m s h => ⟨m, ?_, h⟩⟩
    rw [exec, exec, h.cap]; rfl
  | isEmpty =>
    refine ⟨_, rfl, fun m s h => ⟨m, ?_, h⟩⟩
    rw [exec, exec, h.size]; rfl
  | copy =>
    refine ⟨_, rfl, fun m s h => ⟨m, ?_, h⟩⟩
    rw [exec, exec, exec_readCells h _ m.size 0 [] (by omega) (by simp), exec, h.cap]
    simp [TStackSpec.step]

/-- A thread other than the holder of the lock has either not started its function or is about to return from it. -/
def Outside {α : Type} (th : Option (Prog α)) : Phase (Op α) (Res α) → Prop
  | .idle => th = none
  | .pending o => th = some (prog o)
  | .took r => th = some (.ret r)

/-- What holds in every reachable state. -/
structure Inv {α : Type} (c : Nat) (s : State α) (g : List (GEv (Op α) (Res α))) (ph : Nat → Phase (Op α) (Res α)) (σ : St α) :
    Prop where
  er : erase g = s.hist
  phases : Phases g ph
  legal : Legal TStackSpec.step ⟨[], c⟩ g σ
  outside : ∀ t, s.lock ≠ some t → Outside (s.th t) (ph t)
  free : s.lock = none → Rep s.mem σ
  held : ∀ t, s.lock = some t → ∃ o p m, ph t = .pending o ∧ s.th t = some p ∧
    exec p s.mem = some (m, (TStackSpec.step σ o).2) ∧ Rep m (TStackSpec.step σ o).1

theorem erase_append {O R : Type} (g h : List (GEv O R)) : erase (g ++ h) = erase g ++ erase h := by
  induction g with
  | nil => rfl
  | cons e g ih => cases e <;> simp [erase, ih]

theorem setTh_self {α : Type} (th : Nat → Option (Prog α)) (t : Nat) (p) : setTh th t p t = p := by simp [setTh]
theorem setTh_ne {α : Type} (th : Nat → Option (Prog α)) (t u : Nat) (p) (h : u ≠ t) : setTh th t p u = th u := by
  simp [setTh, h]

theorem exec_lock_ne {α : Type} {k : Prog α} {m : Mem α} {x} (h : exec (.lock k) m = some x) : False := by
  simp [exec] at h
theorem exec_ret_ne {α : Type} {r : Res α} {m : Mem α} {x} (h : exec (.ret r) m = some x) : False := by
  simp [exec] at h

/-- An instruction of the holder inside its critical section, other than the unlock. -/
theorem instr_inside {α : Type} {m : Mem α} {t : Nat} {p : Prog α} {x} (hex : exec p m = some x)
    (hnu : ∀ k, p ≠ .unlock k) : ∃ m' k, instr m (some t) t p = some (m', some t, k) ∧ exec k m' = some x := by
  cases p with
  | lock k => exact (exec_lock_ne hex).elim
  | unlock k => exact absurd rfl (hnu k)
  | rdSize k => exact ⟨_, _, rfl, hex⟩
  | wrSize n k => exact ⟨_, _, rfl, hex⟩
  | rdCap k => exact ⟨_, _, rfl, hex⟩
  | wrCap n k => exact ⟨_, _, rfl, hex⟩
  | rd i k =>
    rw [exec] at hex
    rw [instr]
    cases hd : m.data[i]? with
    | none => rw [hd] at hex; simp at hex
    | some v => rw [hd] at hex; exact ⟨_, _, rfl, hex⟩
  | wr i v k =>
    rw [exec] at hex
    rw [instr]
    by_cases hi : i < m.data.length
    · rw [if_pos hi] at hex ⊢; exact ⟨_, _, rfl, hex⟩
    · rw [if_neg hi] at hex; simp at hex
  | realloc n k => exact ⟨_, _, rfl, hex⟩
  | ret r => exact (exec_ret_ne hex).elim

/-- What the holder does next. -/
theorem held_step {α : Type} {s : State α} {t : Nat} {p : Prog α} {x} (hl : s.lock = some t) (hth : s.th t = some p)
    (hex : exec p s.mem = some x) :
    (∃ m' k, step s (.run t) = some { s with mem := m', lock := some t, th := setTh s.th t (some k) } ∧ exec k m' = some x) ∨
    (x.1 = s.mem ∧ step s (.run t) = some { s with lock := none, th := setTh s.th t (some (.ret x.2)) }) := by
  by_cases hu : ∃ k, p = .unlock k
  · right
    obtain ⟨k, rfl⟩ := hu
    cases k <;> simp [exec] at hex
    subst hex
    simp [step, hth, instr, hl]
  · left
    obtain ⟨m', k, hi, he⟩ := instr_inside (t := t) hex (fun k h => hu ⟨k, h⟩)
    refine ⟨m', k, ?_, he⟩
    have : ∀ r, p ≠ .ret r := by rintro r rfl; exact exec_ret_ne hex
    rw [step, hth]
    cases p <;> first | exact absurd rfl (this _) | (simp only [hl, hi])

theorem inv_step {α : Type} {c : Nat} {s s' : State α} {g ph σ} (h : Inv c s g ph σ) (a : Action α) (hs : step s a = some s') :
    ∃ g ph σ, Inv c s' g ph σ := by
  cases a with
  | call t o =>
    rw [step] at hs
    cases hth : s.th t with
    | some p => rw [hth] at hs; simp at hs
    | none =>
      rw [hth] at hs
      simp only [Option.some.injEq] at hs
      subst hs
      have hnl : s.lock ≠ some t := by
        intro hl
        obtain ⟨o', p, m, _, h2, _⟩ := h.held t hl
        rw [hth] at h2; cases h2
      have hph : ph t = .idle := by
        have := h.outside t hnl
        rw [hth] at this
        cases hp : ph t with
        | idle => rfl
        | pending o => rw [hp] at this; simp [Outside] at this
        | took r => rw [hp] at this; simp [Outside] at this
      refine ⟨g ++ [.call t o], (fun u => if u = t then .pending o else ph u), σ, ?_⟩
      constructor
      · rw [erase_append, h.er]; rfl
      · exact Phases.call t o h.phases hph
      · exact Legal.call t o h.legal
      · intro u hu
        by_cases hut : u = t
        · subst hut; simp [setTh, Outside]
        · simp only [setTh_ne _ _ _ _ hut, if_neg hut]; exact h.outside u hu
      · exact h.free
      · intro u hu
        have hut : u ≠ t := by rintro rfl; exact hnl hu
        simp only [setTh_ne _ _ _ _ hut, if_neg hut]; exact h.held u hu
  | run t =>
    by_cases hl : s.lock = some t
    · obtain ⟨o, p, m, hph, hth, hex, hrep⟩ := h.held t hl
      rcases held_step hl hth hex with ⟨m', k, hst, he⟩ | ⟨hm, hst⟩
      · rw [hst] at hs
        simp only [Option.some.injEq] at hs
        subst hs
        refine ⟨g, ph, σ, h.er, h.phases, h.legal, ?_, ?_, ?_⟩
        · intro u hu
          have hut : u ≠ t := by rintro rfl; exact hu rfl
          simp only [setTh_ne _ _ _ _ hut]; exact h.outside u (by rw [hl]; exact fun e => hut (Option.some.inj e).symm)
        · intro hn; simp at hn
        · intro u hu
          simp only [Option.some.injEq] at hu
          subst hu
          exact ⟨o, k, m, hph, setTh_self _ _ _, he, hrep⟩
      · rw [hst] at hs
        simp only [Option.some.injEq] at hs
        subst hs
        refine ⟨g ++ [.effect t o (TStackSpec.step σ o).2], (fun u => if u = t then .took (TStackSpec.step σ o).2 else ph u),
          (TStackSpec.step σ o).1, ?_⟩
        constructor
        · rw [erase_append, h.er]; simp [erase]
        · exact Phases.effect t o _ h.phases hph
        · exact Legal.effect t o _ h.legal rfl
        · intro u _
          by_cases hut : u = t
          · subst hut; simp [setTh, Outside]
          · simp only [setTh_ne _ _ _ _ hut, if_neg hut]
            exact h.outside u (by rw [hl]; exact fun e => hut (Option.some.inj e).symm)
        · intro _
          simp only at hm
          rw [hm] at hrep; exact hrep
        · intro u hu; simp at hu
    · have ho := h.outside t hl
      rw [step] at hs
      cases hp : ph t with
      | idle =>
        rw [hp] at ho; simp only [Outside] at ho
        rw [ho] at hs; simp at hs
      | pending o =>
        rw [hp] at ho; simp only [Outside] at ho
        obtain ⟨k, hk, hok⟩ := prog_ok o
        rw [ho, hk] at hs
        simp only [instr] at hs
        by_cases hn : s.lock = none
        · simp only [hn, if_true, Option.some.injEq] at hs
          subst hs
          obtain ⟨m', he, hr⟩ := hok s.mem σ (h.free hn)
          refine ⟨g, ph, σ, h.er, h.phases, h.legal, ?_, ?_, ?_⟩
          · intro u hu
            have hut : u ≠ t := by rintro rfl; exact hu rfl
            simp only [setTh_ne _ _ _ _ hut]; exact h.outside u (by rw [hn]; simp)
          · intro e; simp at e
          · intro u hu
            simp only [Option.some.injEq] at hu
            subst hu
            exact ⟨o, k, m', hp, setTh_self _ _ _, he, hr⟩
        · simp [hn] at hs
      | took r =>
        rw [hp] at ho; simp only [Outside] at ho
        rw [ho] at hs
        simp only [Option.some.injEq] at hs
        subst hs
        refine ⟨g ++ [.ret t r], (fun u => if u = t then .idle else ph u), σ, ?_⟩
        constructor
        · rw [erase_append, h.er]; rfl
        · exact Phases.ret t r h.phases hp
        · exact Legal.ret t r h.legal
        · intro u hu
          by_cases hut : u = t
          · subst hut; simp [setTh, Outside]
          · simp only [setTh_ne _ _ _ _ hut, if_neg hut]; exact h.outside u hu
        · exact h.free
        · intro u hu
          have hut : u ≠ t := by rintro rfl; exact hl hu
          simp only [setTh_ne _ _ _ _ hut, if_neg hut]; exact h.held u hu

theorem inv_init {α : Type} (cap : Nat) :
    Inv (if cap = 0 then 16 else cap) (init (α := α) cap) [] (fun _ => .idle) ⟨[], if cap = 0 then 16 else cap⟩ := by
  refine ⟨rfl, Phases.start, Legal.start, fun _ _ => rfl, ?_, ?_⟩
  · intro _
    constructor <;> simp [init]
    split <;> omega
  · intro t ht; simp [init] at ht

theorem inv_run {α : Type} {c : Nat} (as : List (Action α)) : ∀ {s s' : State α} {g ph σ}, Inv c s g ph σ → run s as = some s' →
    ∃ g ph σ, Inv c s' g ph σ := by
  induction as with
  | nil => intro s s' g ph σ h hr; simp [run] at hr; subst hr; exact ⟨g, ph, σ, h⟩
  | cons a as ih =>
    intro s s' g ph σ h hr
    rw [run] at hr
    cases hs : step s a with
    | none => rw [hs] at hr; simp at hr
    | some s1 =>
      rw [hs] at hr
      obtain ⟨g1, ph1, σ1, h1⟩ := inv_step h a hs
      exact ih h1 hr

end TStack
