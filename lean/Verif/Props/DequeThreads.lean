import Verif.Lemmas.DequeThreads
/-! # C126, C127: the threaded deque under every schedule -/
namespace TDT
open Mon BlockSpec Lin

/-- A new deque (threaded_deque.c:58-132) and `n` threads. -/
def init {P : Type} (cap n : Nat) : State (TD.D P) (DOp P) Cond (Res P) := start n (TD.new cap)

/-- The deque a new one stands for. -/
def fresh (P : Type) (cap : Nat) : St P := ⟨[], if cap = 0 then 16 else cap⟩

theorem init_inv {P : Type} (strict : Prop) (cap n : Nat) :
    Inv (claims P strict) (code P) (fresh P cap) (init cap n) [] (fun _ => .idle) (fresh P cap) (fun _ => none) := by
  refine inv_start ⟨TD.inv_new cap, rfl⟩ ⟨fun _ => trivial, fun _ => rfl⟩

theorem reach {P : Type} (strict : Prop) (cap n : Nat) (as : List (Action (DOp P))) (s : State (TD.D P) (DOp P) Cond (Res P))
    (hc : strict → CallsOk Takes as) (hr : run (code P) (init cap n) as = some s) :
    ∃ g ph σ cr, Inv (claims P strict) (code P) (fresh P cap) s g ph σ cr :=
  inv_run (code_ok P strict) as (init_inv strict cap n) (fun t o ho hs => hc hs t o ho) hr

/-- **C126**. Whatever the number of threads, the calls they make, the way their memory accesses are interleaved, and whenever waits
time out or end for no reason, the history of calls and returns is linearizable for a deque: every call that returned looks as if it
had happened at one instant between its call and its return; a blocking call without a time limit returns only with items. -/
theorem C126_linearizable {P : Type} (cap n : Nat) (as : List (Action (DOp P))) (s : State (TD.D P) (DOp P) Cond (Res P))
    (hr : run (code P) (init cap n) as = some s) : LinearizableRel deque (fresh P cap) s.hist := by
  obtain ⟨g, ph, σ, cr, h⟩ := reach False cap n as s False.elim hr
  exact ⟨g, ph, σ, h.er, h.phases, h.legal⟩

/-- The thread can execute its next instruction. -/
def canRun {P : Type} (s : State (TD.D P) (DOp P) Cond (Res P)) (t : Nat) : Prop :=
  ∃ who, (step (code P) s (.run t who)).isSome = true

/-- **C126**: no schedule leads to undefined behaviour, to a mutex released by a thread that does not hold it, or to a deadlock: in
every reachable state a thread inside a function can execute its next instruction, unless it sleeps, or has to take the mutex
while another thread holds it, and then that other thread can execute its next one. -/
theorem C126_progress {P : Type} (cap n : Nat) (as : List (Action (DOp P))) (s : State (TD.D P) (DOp P) Cond (Res P))
    (hr : run (code P) (init cap n) as = some s) (t : Nat) (x : TS (TD.D P) (DOp P) Cond (Res P)) (hx : s.th[t]? = some x)
    (hni : x ≠ .idle) (hna : ∀ o, x ≠ .asleep o) :
    canRun s t ∨ (((∃ o b, x = .woken o b) ∨ ∃ o k, x = .running o (.lock k)) ∧ ∃ u, u ≠ t ∧ s.lock = some u ∧ canRun s u) := by
  obtain ⟨g, ph, σ, cr, h⟩ := reach False cap n as s False.elim hr
  by_cases hl : s.lock = some t
  · exact Or.inl (holder_runs h hl)
  · have blocked : (∃ u, u ≠ t ∧ s.lock = some u ∧ canRun s u) ∨ s.lock = none := by
      cases hlk : s.lock with
      | none => exact Or.inr rfl
      | some u => exact Or.inl ⟨u, by rintro rfl; exact hl hlk, rfl, holder_runs h hlk⟩
    cases x with
    | idle => exact absurd rfl hni
    | asleep o => exact absurd rfl (hna o)
    | woken o b =>
      rcases blocked with hb | hn
      · exact Or.inr ⟨Or.inl ⟨o, b, rfl⟩, hb⟩
      · exact Or.inl ⟨none, by simp [step, hx, hn]⟩
    | running o p =>
      obtain ⟨hok, ⟨hph, hp⟩ | ⟨r, hph, hp⟩⟩ := h.outside t _ hx hl
      · obtain ⟨k, hk, _⟩ := (code_ok P False).prog o hok
        rw [hk] at hp
        subst hp
        rcases blocked with hb | hn
        · exact Or.inr ⟨Or.inr ⟨o, k, rfl⟩, hb⟩
        · exact Or.inl ⟨none, by simp [step, hx, instr, hn]⟩
      · subst hp
        exact Or.inl ⟨none, by simp [step, hx, instr]⟩

/-- The thread sleeps until there is an item. -/
def sleepsForItems {P : Type} : TS (TD.D P) (DOp P) Cond (Res P) → Prop
  | .asleep (.popLeft _) | .asleep (.popRight _) | .asleep (.popLeftN _ _) | .asleep (.popRightN _ _) => True
  | _ => False

/-- The thread sleeps until the deque is empty. -/
def sleepsForEmpty {P : Type} : TS (TD.D P) (DOp P) Cond (Res P) → Prop
  | .asleep (.waitEmpty _) => True
  | _ => False

/-- The thread is outside of any call, or asleep. -/
def quiet {P : Type} : TS (TD.D P) (DOp P) Cond (Res P) → Prop
  | .idle | .asleep _ => True
  | _ => False

/-- **C127**. No wake-up is lost: if nobody asks for zero items, then whenever no thread is in the middle of anything (every thread is
outside of the deque or asleep in it), no thread sleeps waiting for items while there are some, and none sleeps waiting for emptiness
while there are none. -/
theorem C127_no_lost_wakeup {P : Type} (cap n : Nat) (as : List (Action (DOp P))) (s : State (TD.D P) (DOp P) Cond (Res P))
    (hc : CallsOk Takes as) (hr : run (code P) (init cap n) as = some s) (hq : ∀ x ∈ s.th, quiet x) :
    (∀ x ∈ s.th, sleepsForItems x → s.mem.size = 0) ∧ (∀ x ∈ s.th, sleepsForEmpty x → s.mem.size ≠ 0) := by
  obtain ⟨g, ph, σ, cr, h⟩ := reach True cap n as s (fun _ => hc) hr
  have hfree : s.lock = none := by
    cases hl : s.lock with
    | none => rfl
    | some t =>
      obtain ⟨o, p, hth, _⟩ := h.held t hl
      exact absurd (hq _ (List.mem_of_getElem? hth)) (by simp [quiet])
  obtain ⟨_, hj1, hj2⟩ := h.free hfree
  constructor
  · intro x hx hs
    have hsl : sleepsOn (code P) .nonEmpty x = true := by
      cases x with
      | asleep o => cases o <;> first | rfl | exact absurd hs (by simp [sleepsForItems])
      | _ => exact absurd hs (by simp [sleepsForItems])
    have hv := h.valid .nonEmpty
    have hw := hj1 trivial
    cases hcr : cr .nonEmpty with
    | none =>
      rw [hcr] at hv
      have := hv x hx
      rw [hsl] at this; cases this
    | some k =>
      rw [hcr] at hv hw
      have hk : k ≤ s.th.countP (wokenOn (code P) .nonEmpty) := hv ⟨x, hx, hsl⟩
      have hz : s.th.countP (wokenOn (code P) .nonEmpty) = 0 := by
        rw [List.countP_eq_zero]
        intro y hy hwy
        have := hq y hy
        cases y with
        | woken o b => simp [quiet] at this
        | _ => simp [wokenOn] at hwy
      have : s.mem.size ≤ k := hw
      omega
  · intro x hx hs hz
    have hv := h.valid .empty
    rw [hj2 hz] at hv
    have hsl : sleepsOn (code P) .empty x = true := by
      cases x with
      | asleep o => cases o <;> first | rfl | exact absurd hs (by simp [sleepsForEmpty])
      | _ => exact absurd hs (by simp [sleepsForEmpty])
    have := hv x hx
    rw [hsl] at this; cases this

/-- **C127**, waiting for emptiness: no restriction on the calls. Whenever the mutex is free and the deque is empty, nobody sleeps
waiting for it to become empty. -/
theorem C127_wait_empty_is_woken {P : Type} (cap n : Nat) (as : List (Action (DOp P))) (s : State (TD.D P) (DOp P) Cond (Res P))
    (hr : run (code P) (init cap n) as = some s) (hf : s.lock = none) (hz : s.mem.size = 0) :
    ∀ x ∈ s.th, ¬ sleepsForEmpty x := by
  obtain ⟨g, ph, σ, cr, h⟩ := reach False cap n as s False.elim hr
  obtain ⟨_, _, hj2⟩ := h.free hf
  intro x hx hs
  have hv := h.valid .empty
  rw [hj2 hz] at hv
  have hsl : sleepsOn (code P) .empty x = true := by
    cases x with
    | asleep o => cases o <;> first | rfl | exact absurd hs (by simp [sleepsForEmpty])
    | _ => exact absurd hs (by simp [sleepsForEmpty])
  have := hv x hx
  rw [hsl] at this; cases this

/-- All remaining instructions of thread `t`, `k` of them, with nobody chosen by signals. -/
def go (t k : Nat) : List (Action (DOp Nat)) := List.replicate k (.run t none)

/-- **C127, refuted without the restriction**: a `PopLeftN` of zero items that waits uses up the wake-up meant for somebody else.
Thread 1 (`PopLeft`) and thread 0 (`PopLeftN` of 0) sleep; thread 2 pushes an item and wakes thread 0, which takes nothing and returns;
thread 1 sleeps forever next to the item. -/
theorem C127_zero_items_strands_a_consumer_negated : ∃ (as : List (Action (DOp Nat))) (s : State (TD.D Nat) (DOp Nat) Cond (Res Nat)),
    run (code Nat) (init 4 3) as = some s ∧ (∀ x ∈ s.th, quiet x) ∧ (∃ x ∈ s.th, sleepsForItems x) ∧ s.mem.size = 1 := by
  refine ⟨[.call 0 (.popLeftN 0 (-1))] ++ go 0 3 ++ [.call 1 (.popLeft (-1))] ++ go 1 3 ++ [.call 2 (.pushRight 7)] ++ go 2 12 ++
    [.run 2 (some 0)] ++ go 2 2 ++ go 0 6, _, rfl, ?_, ?_, rfl⟩
  · intro x hx
    simp [start, init, TD.new, List.replicate] at hx
    rcases hx with rfl | rfl | rfl <;> simp [quiet]
  · exact ⟨.asleep (.popLeft (-1)), List.mem_of_getElem? (i := 1) rfl, trivial⟩

/-- A consumer sleeps in an empty deque of capacity 1; two producers push, overlapping, the second one making the deque grow while it
is wrapped; the consumer is woken, waits for the mutex, and gets the leftmost item; `WaitEmpty` is woken by the last pop. -/
def sample : List (Action (DOp Nat)) :=
  [.call 0 (.popLeft (-1))] ++ go 0 3 ++ [.call 1 (.pushRight 5), .call 2 (.pushLeft 6)] ++ go 1 12 ++ [.run 1 (some 0), .run 1 none] ++
    go 2 22 ++ [.run 1 none] ++ go 2 1 ++ [.call 1 (.waitEmpty 9)] ++ go 1 3 ++ go 0 13 ++ [.call 2 (.popRightN 4 0)] ++ go 2 14 ++ go 1 4

example : ∃ s, run (code Nat) (init 1 3) sample = some s ∧ s.hist =
    [.call 0 (.popLeft (-1)), .call 1 (.pushRight 5), .call 2 (.pushLeft 6), .ret 1 (.size 1), .ret 2 (.size 2), .call 1 (.waitEmpty 9),
     .ret 0 (.item 6), .call 2 (.popRightN 4 0), .ret 2 (.items [5]), .ret 1 (.bool true)] ∧ s.mem.cap = 2 :=
  ⟨_, rfl, rfl, rfl⟩

/-- A reachable quiet state with a sleeper of each kind, as in `C127_no_lost_wakeup`. -/
example : ∃ s, run (code Nat) (init 1 3) ([.call 0 (.popLeftN 2 5)] ++ go 0 3) = some s ∧ (∀ x ∈ s.th, quiet x) ∧
    (∃ x ∈ s.th, sleepsForItems x) := by
  refine ⟨_, rfl, ?_, .asleep (.popLeftN 2 5), List.mem_of_getElem? (i := 0) rfl, trivial⟩
  intro x hx
  simp [start, init, TD.new, List.replicate] at hx
  rcases hx with rfl | rfl <;> simp [quiet]

example : ∃ s, run (code Nat) (init 1 3) ([.call 0 (.pushLeft 2)] ++ go 0 14 ++ [.call 1 (.waitEmpty 5)] ++ go 1 3) = some s ∧
    (∀ x ∈ s.th, quiet x) ∧ (∃ x ∈ s.th, sleepsForEmpty x) := by
  refine ⟨_, rfl, ?_, .asleep (.waitEmpty 5), List.mem_of_getElem? (i := 1) rfl, trivial⟩
  intro x hx
  simp [start, init, TD.new, List.replicate] at hx
  rcases hx with rfl | rfl | rfl <;> simp [quiet]

end TDT
