import Verif.Lemmas.QueueThreads
import Verif.Spec.QueueTime
/-! # C155: waiting in the threaded queue ends -/
namespace TQT
open TQ FifoSpec

/-- What is true of a thread's state. -/
def TOk {P : Type} : TS P → Prop
  | .asleep c => ∃ t, limit c = some t ∧ t ≠ 0
  | .woken c true => timed c
  | _ => True

structure TInv {P : Type} (s : State P) : Prop where
  th : ∀ x ∈ s.th, TOk x
  log : ∀ e ∈ s.log, e.2.2 = .timedOut → timed e.2.1
  held : ∀ t, s.lock = some t → ∃ x, s.th[t]? = some x ∧ critical x = true

theorem canTimeOut_iff {P : Type} (c : Call P) : canTimeOut c = true ↔ timed c := by
  cases c <;> simp [canTimeOut, timed, limit]

theorem mustWait_limit {P : Type} {q : Q P} {c : Call P} (h : mustWait q c = true) : ∃ t, limit c = some t ∧ t ≠ 0 := by
  cases c <;> simp_all [mustWait, limit]

theorem wakeEmpty_TOk {P : Type} {x : TS P} (h : TOk x) : TOk (wakeEmpty x) := by
  cases x <;> simp only [wakeEmpty] <;> try exact h
  split
  · trivial
  · exact h

theorem signal_TOk {P : Type} {th th' : List (TS P)} {w : Option Nat} (h : signal th w = some th') (H : ∀ x ∈ th, TOk x) : ∀ x ∈ th', TOk x := by
  rcases signal_spec h with ⟨-, rfl⟩ | ⟨t, c, -, -, rfl⟩
  · exact H
  · intro x hx
    rcases mem_set' hx with rfl | hx
    · trivial
    · exact H x hx

theorem body_not_timedOut {P : Type} {q q' : Q P} {c : Call P} {r : Result P} (h : body q c = some (q', r)) : r ≠ .timedOut := by
  cases c <;> simp only [body, Option.map_eq_some_iff, Option.some.injEq, Prod.mk.injEq] at h
  all_goals first
    | (obtain ⟨a, -, h⟩ := h; obtain ⟨-, rfl⟩ := h; simp)
    | (obtain ⟨-, rfl⟩ := h; simp)

theorem held_set {P : Type} {s : State P} (H : ∀ t, s.lock = some t → ∃ x, s.th[t]? = some x ∧ critical x = true) {t : Nat} {x y : TS P} (hx : s.th[t]? = some x)
    (hc : critical x = true → critical y = true) : ∀ j, s.lock = some j → ∃ z, (s.th.set t y)[j]? = some z ∧ critical z = true := by
  intro j hj
  obtain ⟨z, hz, hcz⟩ := H j hj
  by_cases e : t = j
  · subst e
    rw [hx] at hz; cases hz
    exact ⟨y, by rw [List.getElem?_set_self (List.getElem?_eq_some_iff.1 hx).1], hc hcz⟩
  · exact ⟨z, by rw [List.getElem?_set_ne e]; exact hz, hcz⟩

theorem step_tinv {P : Type} {s s' : State P} {a : Action P} (H : TInv s) (h : step s a = some s') : TInv s' := by
  have th' : ∀ (t : Nat) (y : TS P), TOk y → ∀ x ∈ s.th.set t y, TOk x := by
    intro t y hy x hx
    rcases mem_set' hx with rfl | hx
    · exact hy
    · exact H.th x hx
  have self : ∀ {th : List (TS P)} {t : Nat} {x : TS P} (y : TS P), th[t]? = some x → (th.set t y)[t]? = some y := by
    intro th t x y hx; rw [List.getElem?_set_self (List.getElem?_eq_some_iff.1 hx).1]
  cases a with
  | call t c =>
    simp only [step] at h
    split at h
    · rename_i hx
      injection h with h; subst h
      exact ⟨th' _ _ trivial, H.log, held_set H.held hx (by simp [critical])⟩
    · cases h
  | lock t =>
    simp only [step] at h
    split at h
    · rename_i c hl hx
      injection h with h; subst h
      exact ⟨th' _ _ trivial, H.log, fun j hj => by injection hj with hj; subst hj; exact ⟨_, self _ hx, rfl⟩⟩
    · rename_i c hl hx
      injection h with h; subst h
      exact ⟨th' _ _ trivial, H.log, fun j hj => by injection hj with hj; subst hj; exact ⟨_, self _ hx, rfl⟩⟩
    · rename_i c hl hx
      injection h with h; subst h
      refine ⟨th' _ _ trivial, ?_, fun j hj => by injection hj with hj; subst hj; exact ⟨_, self _ hx, rfl⟩⟩
      intro e he hr
      rcases List.mem_append.1 he with he | he
      · exact H.log e he hr
      · rw [List.mem_singleton.1 he]
        exact H.th _ (List.mem_of_getElem? hx)
    · cases h
  | wait t =>
    simp only [step] at h
    split at h
    · split at h
      · rename_i hw
        injection h with h; subst h
        exact ⟨th' _ _ (mustWait_limit hw.2), H.log, fun j hj => by cases hj⟩
      · cases h
    · cases h
  | timeout t =>
    simp only [step] at h
    split at h
    · rename_i hx
      split at h
      · rename_i hc
        injection h with h; subst h
        exact ⟨th' _ _ ((canTimeOut_iff _).1 hc), H.log, held_set H.held hx (by simp [critical])⟩
      · cases h
    · cases h
  | spurious t =>
    simp only [step] at h
    split at h
    · rename_i hx
      injection h with h; subst h
      exact ⟨th' _ _ trivial, H.log, held_set H.held hx (by simp [critical])⟩
    · cases h
  | unlock t =>
    simp only [step] at h
    split at h
    · split at h
      · injection h with h; subst h
        exact ⟨th' _ _ trivial, H.log, fun j hj => by cases hj⟩
      · cases h
    · cases h
  | body t wakes =>
    simp only [step] at h
    split at h
    · rename_i c hx
      split at h
      · rename_i hw
        cases hb : body s.q c with
        | none => rw [hb] at h; cases h
        | some qr =>
          obtain ⟨q', r⟩ := qr
          simp only [hb, Option.bind_eq_bind, Option.bind_some] at h
          generalize hth : (if broadcasts q' c then s.th.map wakeEmpty else s.th) = th1 at h
          have g1 : ∀ x ∈ th1, TOk x := by
            rw [← hth]
            split
            · intro x hx
              obtain ⟨y, hy, rfl⟩ := List.mem_map.1 hx
              exact wakeEmpty_TOk (H.th y hy)
            · exact H.th
          have glog : ∀ e ∈ s.log ++ [(t, c, r)], e.2.2 = .timedOut → timed e.2.1 := by
            intro e he hr
            rcases List.mem_append.1 he with he | he
            · exact H.log e he hr
            · rw [List.mem_singleton.1 he] at hr
              exact absurd hr (body_not_timedOut hb)
          have fin : ∀ th2 : List (TS P), th2.length = s.th.length → (∀ x ∈ th2, TOk x) → TInv { s with q := q', th := th2.set t (.leaving c), log := s.log ++ [(t, c, r)] } := by
            intro th2 hlen h2
            refine ⟨?_, glog, ?_⟩
            · intro x hx
              rcases mem_set' hx with rfl | hx
              · trivial
              · exact h2 x hx
            · intro j hj
              have : j = t := by
                have := hw.1; rw [show s.lock = some j from hj] at this; exact Option.some.inj this
              subst this
              exact ⟨.leaving c, by rw [List.getElem?_set_self (by rw [hlen]; exact (List.getElem?_eq_some_iff.1 hx).1)], rfl⟩
          have hl1 : th1.length = s.th.length := by rw [← hth]; split <;> simp
          split at h
          · cases hsig : signal th1 wakes with
            | none => rw [hsig] at h; cases h
            | some th2 =>
              rw [hsig] at h
              simp only [Option.bind_some] at h
              injection h with h; subst h
              refine fin th2 ?_ (signal_TOk hsig g1)
              rcases signal_spec hsig with ⟨-, rfl⟩ | ⟨_, _, -, -, rfl⟩
              · exact hl1
              · rw [List.length_set]; exact hl1
          · injection h with h; subst h
            exact fin th1 hl1 g1
      · cases h
    · cases h

theorem run_tinv {P : Type} (as : List (Action P)) : ∀ {s s' : State P}, TInv s → run s as = some s' → TInv s' := by
  induction as with
  | nil => intro s s' H h; injection h with h; subst h; exact H
  | cons a as ih =>
    intro s s' H h
    simp only [run] at h
    cases hs : step s a with
    | none => rw [hs] at h; cases h
    | some s1 => rw [hs] at h; exact ih (step_tinv H hs) h

theorem init_tinv {P : Type} (cap n : Nat) : TInv (init cap n : State P) :=
  ⟨fun x hx => (by rw [(List.mem_replicate.mp hx).2]; trivial), fun e he => (by cases he), fun t ht => (by cases ht)⟩

/-- **C155.** Time limits are kept: whoever sleeps was given a limit other than 0, and if it is not "for ever", then the call can end at any moment at which the lock is free, with nothing taken and
nothing changed; and no other call ends that way: not one told to wait for ever and not one told not to wait. -/
theorem C155_time_limits {P : Type} (cap n : Nat) (as : List (Action P)) (s : State P) (h : run (init cap n) as = some s) :
    (∀ t c, s.th[t]? = some (.asleep c) → ∃ m, limit c = some m ∧ m ≠ 0 ∧
      (m ≠ -1 → s.lock = none → ∃ s', run s [.timeout t, .lock t, .unlock t] = some s' ∧ s'.th = s.th.set t .idle ∧ s'.log = s.log ++ [(t, c, .timedOut)] ∧ s'.q = s.q ∧ s'.lock = none)) ∧
    (∀ e ∈ s.log, e.2.2 = .timedOut → timed e.2.1) := by
  have H := run_tinv as (init_tinv cap n) h
  refine ⟨fun t c ht => ?_, H.log⟩
  obtain ⟨m, hm, h0⟩ := H.th _ (List.mem_of_getElem? ht)
  refine ⟨m, hm, h0, fun h1 hl => ?_⟩
  have hc : canTimeOut c = true := (canTimeOut_iff c).2 ⟨m, hm, h0, h1⟩
  have hlt := (List.getElem?_eq_some_iff.1 ht).1
  refine ⟨⟨s.q, none, s.th.set t .idle, s.log ++ [(t, c, .timedOut)]⟩, ?_, rfl, rfl, rfl, rfl⟩
  have e1 : step s (.timeout t) = some ⟨s.q, none, s.th.set t (.woken c true), s.log⟩ := by simp only [step, ht]; rw [if_pos hc, hl]
  have e2 : (s.th.set t (.woken c true))[t]? = some (.woken c true) := by rw [List.getElem?_set_self hlt]
  simp only [run, e1, Option.bind_eq_bind, Option.bind_some]
  simp only [step, e2, Option.bind_some]
  simp [hlt]

theorem run_append {P : Type} (as bs : List (Action P)) : ∀ {s s1 s2 : State P}, run s as = some s1 → run s1 bs = some s2 → run s (as ++ bs) = some s2 := by
  induction as with
  | nil => intro s s1 s2 h1 h2; injection h1 with h1; subst h1; exact h2
  | cons a as ih =>
    intro s s1 s2 h1 h2
    simp only [run, List.cons_append] at h1 ⊢
    cases hs : step s a with
    | none => rw [hs] at h1; cases h1
    | some s' => rw [hs] at h1; exact ih h1 h2

/-- A signal can always be given. -/
theorem signal_some {P : Type} (th : List (TS P)) : ∃ w th', signal th w = some th' ∧ th'.length = th.length := by
  by_cases h : ∃ x ∈ th, sleepsForItems x = true
  · obtain ⟨x, hx, hc⟩ := h
    obtain ⟨i, hi⟩ := List.getElem?_of_mem hx
    cases x with
    | asleep c => exact ⟨some i, th.set i (.woken c false), by simp only [signal, hi]; rw [if_pos (show isConsumer c = true from hc)], by simp⟩
    | _ => simp [sleepsForItems] at hc
  · exact ⟨none, th, if_neg fun hany => h (by obtain ⟨x, hx, hc⟩ := List.any_eq_true.1 hany; exact ⟨x, hx, by cases x <;> simp_all [sleepsForItems]⟩), rfl⟩

/-- The thread that holds the lock can give it back, by itself. -/
theorem release {P : Type} {s : State P} {l : List P} (S : SInv s l) (H : TInv s) {t : Nat} (hl : s.lock = some t) :
    ∃ bs s', run s bs = some s' ∧ s'.lock = none ∧ s'.th.length = s.th.length ∧ ∃ y, s'.th[t]? = some y ∧ resting y := by
  obtain ⟨x, hx, hc⟩ := H.held t hl
  have hlt := (List.getElem?_eq_some_iff.1 hx).1
  cases x with
  | leaving c => exact ⟨[.unlock t], ⟨s.q, none, s.th.set t .idle, s.log⟩, by simp [run, step, hx, hl], rfl, by simp, .idle, by simp [hlt], trivial⟩
  | inside c =>
    by_cases hw : mustWait s.q c = true
    · exact ⟨[.wait t], ⟨s.q, none, s.th.set t (.asleep c), s.log⟩, by simp [run, step, hx, hl, hw], rfl, by simp, .asleep c, by simp [hlt], trivial⟩
    · have hw : mustWait s.q c = false := by simpa using hw
      obtain ⟨q', e, -⟩ := body_spec S.inv c
      let th1 := if broadcasts q' c then s.th.map wakeEmpty else s.th
      have hl1 : th1.length = s.th.length := by show (if broadcasts q' c then s.th.map wakeEmpty else s.th).length = _; split <;> simp
      obtain ⟨w, th2, hs, hl2⟩ := signal_some th1
      let th3 := if signals c then th2 else th1
      have hl3 : th3.length = s.th.length := by show (if signals c then th2 else th1).length = _; split; exact hl2.trans hl1; exact hl1
      refine ⟨[.body t w, .unlock t], ⟨q', none, (th3.set t (.leaving c)).set t .idle, s.log ++ [(t, c, (apply l c).2)]⟩, ?_, rfl, by simp [hl3], .idle, by simp [hl3, hlt], trivial⟩
      have hb : step s (.body t w) = some ⟨q', s.lock, th3.set t (.leaving c), s.log ++ [(t, c, (apply l c).2)]⟩ := by
        simp only [step, hx]
        rw [if_pos ⟨hl, hw⟩, e]
        simp only [Option.bind_eq_bind, Option.bind_some]
        simp only [th3]
        split
        · rw [show signal (if broadcasts q' c = true then List.map wakeEmpty s.th else s.th) w = some th2 from hs]; rfl
        · rfl
      have e2 : (th3.set t (TS.leaving c))[t]? = some (.leaving c) := by rw [List.getElem?_set_self (by omega)]
      simp only [run, hb, Option.bind_eq_bind, Option.bind_some]
      simp only [step, e2, Option.bind_some]
      rw [if_pos hl]; rfl
  | _ => simp [critical] at hc

/-- **C155.** Nothing gets stuck: in every reachable state every thread that is in a call has a way to the end of the call, or to sleep in it, whoever holds the lock. -/
theorem C155_every_call_goes_on {P : Type} (cap n : Nat) (as : List (Action P)) (s : State P) (h : run (init cap n) as = some s) (t : Nat) (x : TS P) (ht : s.th[t]? = some x) :
    ∃ bs s' y, run s bs = some s' ∧ s'.th[t]? = some y ∧ resting y := by
  obtain ⟨l, S⟩ := run_inv as (init_inv cap n) h
  have H := run_tinv as (init_tinv cap n) h
  have free : ∀ (s : State P) (l : List P), SInv s l → TInv s → s.lock = none → t < s.th.length → ∃ bs s' y, run s bs = some s' ∧ s'.th[t]? = some y ∧ resting y := by
    intro s l S H hl hlt
    obtain ⟨x, hx⟩ : ∃ x, s.th[t]? = some x := ⟨s.th[t], List.getElem?_eq_getElem hlt⟩
    have go : ∀ s1, step s (.lock t) = some s1 → s1.lock = some t → ∃ bs s' y, run s bs = some s' ∧ s'.th[t]? = some y ∧ resting y := by
      intro s1 h1 hl1
      obtain ⟨l1, S1⟩ := step_inv S h1
      obtain ⟨bs, s', h2, -, -, y, hy, hr⟩ := release S1 (step_tinv H h1) hl1
      exact ⟨.lock t :: bs, s', y, by simp [run, h1, h2], hy, hr⟩
    cases x with
    | idle => exact ⟨[], s, .idle, rfl, hx, trivial⟩
    | asleep c => exact ⟨[], s, .asleep c, rfl, hx, trivial⟩
    | entering c => exact go _ (by simp only [step, hl, hx]; rfl) rfl
    | woken c b =>
      cases b with
      | false => exact go _ (by simp only [step, hl, hx]; rfl) rfl
      | true => exact go _ (by simp only [step, hl, hx]; rfl) rfl
    | inside c => rw [S.mutex t _ hx rfl] at hl; cases hl
    | leaving c => rw [S.mutex t _ hx rfl] at hl; cases hl
  have hlt := (List.getElem?_eq_some_iff.1 ht).1
  cases hl : s.lock with
  | none => exact free s l S H hl hlt
  | some t' =>
    obtain ⟨bs, s1, h1, hl1, hlen, y, hy, hr⟩ := release S H hl
    obtain ⟨l1, S1⟩ := run_inv bs S h1
    obtain ⟨cs, s2, z, h2, hz, hrz⟩ := free s1 l1 S1 (run_tinv bs H h1) hl1 (by omega)
    exact ⟨bs ++ cs, s2, z, run_append bs cs h1 h2, hz, hrz⟩

/-- A pop with a limit of one second sleeps, another thread holds the lock; the pop times out after that. -/
example : ∃ s : State Nat, run (init 2 2) [.call 0 (.pop 1), .lock 0, .wait 0, .call 1 .count, .lock 1] = some s ∧ s.th[0]? = some (.asleep (.pop 1)) ∧ s.lock = some 1 ∧
    (run s [.body 1 none, .unlock 1, .timeout 0, .lock 0, .unlock 0]).map (fun s => s.log.map fun e => (e.1, e.2.2)) = some [(1, .size 0), (0, .timedOut)] := ⟨_, rfl, rfl, rfl, by decide⟩
/-- A pop that waits for ever cannot time out, nor one that does not wait. -/
example : run (init 2 2 : State Nat) [.call 0 (.pop (-1)), .lock 0, .wait 0, .timeout 0] = none ∧ run (init 2 2 : State Nat) [.call 0 (.pop 0), .lock 0, .wait 0] = none := by
  constructor <;> rfl

end TQT
