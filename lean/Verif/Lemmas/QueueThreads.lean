import Verif.Lemmas.ThreadedQueue
/-! # Invariants of the threaded queue over all schedules -/
namespace TQT
open TQ FifoSpec

theorem body_spec {P : Type} {q : Q P} {l : List P} (I : Inv q l) (c : Call P) :
    ∃ q', body q c = some (q', (apply l c).2) ∧ Inv q' (apply l c).1 := by
  cases c with
  | push x => obtain ⟨q', e, I'⟩ := push_spec I x; exact ⟨q', by simp [body, e, apply], I'⟩
  | pushN xs => obtain ⟨q', e, I'⟩ := pushN_spec xs I; exact ⟨q', by simp [body, e, apply], I'⟩
  | pop t => obtain ⟨q', e, I'⟩ := pop_spec I; exact ⟨q', by simp [body, e, apply], I'⟩
  | popN n t => obtain ⟨q', e, I'⟩ := popN_spec I n; exact ⟨q', by simp [body, e, apply], I'⟩
  | clear => obtain ⟨q', e, I'⟩ := clear_spec I; exact ⟨q', by simp [body, e, apply], I'⟩
  | clearAndPush x => obtain ⟨q', e, I'⟩ := clearAndPush_spec I x; exact ⟨q', by simp [body, e, apply], I'⟩
  | waitEmpty t =>
    refine ⟨q, ?_, I⟩
    simp only [body, apply, I.size]
    cases l <;> rfl
  | count => exact ⟨q, by simp [body, apply, I.size], I⟩

theorem legal_snoc {P : Type} {l l' : List P} {log : List (Nat × Call P × Result P)} (h : Legal l log l') (t : Nat) (c : Call P) :
    Legal l (log ++ [(t, c, (apply l' c).2)]) (apply l' c).1 := by
  induction h with
  | nil l => exact Legal.call l _ t c [] (Legal.nil _)
  | timedOut l l' t' c' log h ih => exact Legal.timedOut l _ t' c' _ ih
  | call l l' t' c' log h ih => exact Legal.call l _ t' c' _ ih

theorem legal_snoc_timedOut {P : Type} {l l' : List P} {log : List (Nat × Call P × Result P)} (h : Legal l log l') (t : Nat) (c : Call P) :
    Legal l (log ++ [(t, c, .timedOut)]) l' := by
  induction h with
  | nil l => exact Legal.timedOut l _ t c [] (Legal.nil _)
  | timedOut l l' t' c' log h ih => exact Legal.timedOut l _ t' c' _ ih
  | call l l' t' c' log h ih => exact Legal.call l _ t' c' _ ih

/-- The invariant: the queue holds what the log says; only the lock holder is in a critical section. -/
structure SInv {P : Type} (s : State P) (l : List P) : Prop where
  inv : Inv s.q l
  legal : Legal [] s.log l
  mutex : ∀ (t : Nat) (st : TS P), s.th[t]? = some st → critical st = true → s.lock = some t

theorem crit_set {P : Type} {th : List (TS P)} {t : Nat} {st : TS P} {lk : Option Nat}
    (h : ∀ (j : Nat) (x : TS P), j ≠ t → th[j]? = some x → critical x = true → lk = some j) (hst : critical st = true → lk = some t) :
    ∀ (j : Nat) (x : TS P), (th.set t st)[j]? = some x → critical x = true → lk = some j := by
  intro j x hj hx
  by_cases hjt : j = t
  · subst hjt
    rw [List.getElem?_set] at hj
    simp only [if_true] at hj
    split at hj
    · injection hj with hj; subst hj; exact hst hx
    · cases hj
  · rw [List.getElem?_set_ne (Ne.symm hjt)] at hj
    exact h j x hjt hj hx

theorem wakeEmpty_critical {P : Type} (x : TS P) : critical (wakeEmpty x) = critical x := by
  cases x <;> simp only [wakeEmpty]
  split <;> rfl

theorem signal_get {P : Type} {th th' : List (TS P)} {w : Option Nat} (h : signal th w = some th') (j : Nat) (x : TS P)
    (hj : th'[j]? = some x) (hx : critical x = true) : th[j]? = some x := by
  unfold signal at h
  split at h
  · rename_i t
    split at h
    · rename_i c hc
      split at h
      · injection h with h; subst h
        rw [List.getElem?_set] at hj
        split at hj
        · split at hj
          · injection hj with hj; subst hj; simp [critical] at hx
          · cases hj
        · exact hj
      · cases h
    · cases h
  · split at h
    · cases h
    · injection h with h; subst h; exact hj

theorem step_inv {P : Type} {s s' : State P} {a : Action P} {l : List P} (H : SInv s l) (h : step s a = some s') :
    ∃ l', SInv s' l' := by
  have hne : ∀ (j t : Nat) (x : TS P), s.lock = none → s.th[j]? = some x → critical x = true → False := by
    intro j t x h1 h2 h3; have := H.mutex j x h2 h3; rw [h1] at this; cases this
  unfold step at h
  split at h
  · split at h
    · injection h with h; subst h
      exact ⟨l, H.inv, H.legal, crit_set (fun j x _ => H.mutex j x) (by simp [critical])⟩
    · cases h
  · rename_i t
    split at h
    · rename_i c hl hc
      injection h with h; subst h
      exact ⟨l, H.inv, H.legal, crit_set (fun j x _ h1 h2 => absurd h2 (fun h2 => hne j t x hl h1 h2)) (by simp)⟩
    · rename_i c hl hc
      injection h with h; subst h
      exact ⟨l, H.inv, H.legal, crit_set (fun j x _ h1 h2 => absurd h2 (fun h2 => hne j t x hl h1 h2)) (by simp)⟩
    · rename_i c hl hc
      injection h with h; subst h
      exact ⟨l, H.inv, legal_snoc_timedOut H.legal t c,
        crit_set (fun j x _ h1 h2 => absurd h2 (fun h2 => hne j t x hl h1 h2)) (by simp)⟩
    · cases h
  · rename_i t
    split at h
    · rename_i c hc
      split at h
      · rename_i hw
        injection h with h; subst h
        refine ⟨l, H.inv, H.legal, crit_set ?_ (by simp [critical])⟩
        intro j x hj h1 h2
        have := H.mutex j x h1 h2
        rw [hw.1] at this; injection this with this; exact absurd this.symm hj
      · cases h
    · cases h
  · split at h
    · split at h
      · injection h with h; subst h
        exact ⟨l, H.inv, H.legal, crit_set (fun j x _ => H.mutex j x) (by simp [critical])⟩
      · cases h
    · cases h
  · split at h
    · injection h with h; subst h
      exact ⟨l, H.inv, H.legal, crit_set (fun j x _ => H.mutex j x) (by simp [critical])⟩
    · cases h
  · rename_i t wakes
    split at h
    · rename_i c hc
      split at h
      · rename_i hw
        obtain ⟨q', e, I'⟩ := body_spec H.inv c
        simp only [e, Option.bind_eq_bind, Option.bind_some] at h
        -- th after the broadcast
        have hb : ∀ (j : Nat) (x : TS P), (if broadcasts q' c then s.th.map wakeEmpty else s.th)[j]? = some x → critical x = true →
            s.lock = some j := by
          intro j x hj hx
          split at hj
          · rw [List.getElem?_map] at hj
            cases hs : s.th[j]? with
            | none => rw [hs] at hj; cases hj
            | some y =>
              rw [hs] at hj; simp only [Option.map_some] at hj; injection hj with hj; subst hj
              rw [wakeEmpty_critical] at hx
              exact H.mutex j y hs hx
          · exact H.mutex j x hj hx
        split at h
        · cases hsig : signal (if broadcasts q' c then s.th.map wakeEmpty else s.th) wakes with
          | none => rw [hsig] at h; cases h
          | some th' =>
            rw [hsig] at h
            simp only [Option.bind_some] at h
            injection h with h; subst h
            exact ⟨_, I', legal_snoc H.legal t c, crit_set (fun j x _ h1 h2 => hb j x (signal_get hsig j x h1 h2) h2) (fun _ => hw.1)⟩
        · injection h with h; subst h
          exact ⟨_, I', legal_snoc H.legal t c, crit_set (fun j x _ h1 h2 => hb j x h1 h2) (fun _ => hw.1)⟩
      · cases h
    · cases h
  · rename_i t
    split at h
    · rename_i c hc
      split at h
      · rename_i hw
        injection h with h; subst h
        refine ⟨l, H.inv, H.legal, crit_set ?_ (by simp [critical])⟩
        intro j x hj h1 h2
        have := H.mutex j x h1 h2
        rw [hw] at this; injection this with this; exact absurd this.symm hj
      · cases h
    · cases h

theorem init_inv {P : Type} (cap n : Nat) : SInv (init cap n : State P) [] := by
  refine ⟨inv_new cap, Legal.nil _, ?_⟩
  intro t st h hc
  simp only [init, List.getElem?_replicate] at h
  split at h
  · injection h with h; subst h; simp [critical] at hc
  · cases h

theorem run_inv {P : Type} (as : List (Action P)) : ∀ {s s' : State P} {l : List P}, SInv s l → run s as = some s' → ∃ l', SInv s' l' := by
  induction as with
  | nil => intro s s' l H h; injection h with h; subst h; exact ⟨l, H⟩
  | cons a as ih =>
    intro s s' l H h
    simp only [run] at h
    cases hs : step s a with
    | none => rw [hs] at h; cases h
    | some s1 =>
      rw [hs] at h
      obtain ⟨l1, H1⟩ := step_inv H hs
      exact ih H1 h

/-- What entered and did not leave is what is there. -/
theorem legal_conserves {P : Type} {l l' : List P} {log : List (Nat × Call P × Result P)} (h : Legal l log l') :
    l ++ (log.map entered).flatten = (log.map left).flatten ++ l' := by
  induction h with
  | nil l => simp
  | timedOut l l' t c log h ih => simpa [entered, left] using ih
  | call l l' t c log h ih =>
    rw [List.map_cons, List.map_cons, List.flatten_cons, List.flatten_cons, List.append_assoc, ← ih, ← List.append_assoc, ← List.append_assoc]
    congr 1
    cases c with
    | push x => simp [apply, entered, left]
    | pushN xs => simp [apply, entered, left]
    | pop t => cases l <;> simp [apply, entered, left]
    | popN n t => simp [apply, entered, left]
    | clear => simp [apply, entered, left]
    | clearAndPush x => simp [apply, entered, left]
    | waitEmpty t => simp [apply, entered, left]
    | count => simp [apply, entered, left]

/-! ## Wake-ups -/

/-- The call of a thread. -/
def callOf {P : Type} : TS P → Option (Call P)
  | .idle => none
  | .entering c => some c
  | .inside c => some c
  | .asleep c => some c
  | .woken c _ => some c
  | .leaving c => some c

structure WInv {P : Type} (s : State P) : Prop where
  single : ∀ st ∈ s.th, ∀ c, callOf st = some c → Single c
  wake : 0 < s.th.countP sleepsForItems → s.q.size ≤ s.th.countP seeksItems

/-- Nobody sleeps for emptiness next to an empty queue. -/
def EInv {P : Type} (s : State P) : Prop := s.q.size = 0 → ∀ st ∈ s.th, sleepsForEmpty st = false

theorem countP_set' {α : Type} (p : α → Bool) (l : List α) (i : Nat) (x y : α) (h : l[i]? = some x) :
    (l.set i y).countP p + (if p x then 1 else 0) = l.countP p + (if p y then 1 else 0) := by
  induction l generalizing i with
  | nil => simp at h
  | cons a l ih =>
    cases i with
    | zero =>
      simp only [List.getElem?_cons_zero, Option.some.injEq] at h; subst h
      simp only [List.set_cons_zero, List.countP_cons]; omega
    | succ i =>
      simp only [List.getElem?_cons_succ] at h
      have := ih i h
      simp only [List.set_cons_succ, List.countP_cons]; omega

theorem mem_set' {α : Type} {l : List α} {i : Nat} {y z : α} (h : z ∈ l.set i y) : z = y ∨ z ∈ l :=
  (List.mem_or_eq_of_mem_set h).symm

theorem countP_wakeEmpty {P : Type} (th : List (TS P)) :
    (th.map wakeEmpty).countP sleepsForItems = th.countP sleepsForItems ∧
      (th.map wakeEmpty).countP seeksItems = th.countP seeksItems := by
  have key : ∀ x : TS P, sleepsForItems (wakeEmpty x) = sleepsForItems x ∧ seeksItems (wakeEmpty x) = seeksItems x := by
    intro x
    cases x with
    | asleep c => cases c <;> simp [wakeEmpty, isWaitEmpty, sleepsForItems, seeksItems, isConsumer]
    | _ => simp [wakeEmpty]
  induction th with
  | nil => simp
  | cons a th ih => simp only [List.map_cons, List.countP_cons, key a, ih]; simp

theorem callOf_wakeEmpty {P : Type} (x : TS P) : callOf (wakeEmpty x) = callOf x := by
  cases x <;> simp only [wakeEmpty]
  split <;> rfl

theorem wakeEmpty_sleeps {P : Type} (x : TS P) : sleepsForEmpty (wakeEmpty x) = false := by
  cases x with
  | asleep c => cases c <;> simp [wakeEmpty, isWaitEmpty, sleepsForEmpty]
  | _ => simp [wakeEmpty, sleepsForEmpty]

theorem signal_spec {P : Type} {th th' : List (TS P)} {w : Option Nat} (h : signal th w = some th') :
    (th.countP sleepsForItems = 0 ∧ th' = th) ∨
    (∃ t c, isConsumer c = true ∧ th[t]? = some (.asleep c) ∧ th' = th.set t (.woken c false)) := by
  unfold signal at h
  split at h
  · rename_i t
    split at h
    · rename_i c hc
      split at h
      · rename_i hcons
        injection h with h
        exact Or.inr ⟨t, c, hcons, hc, h.symm⟩
      · cases h
    · cases h
  · split at h
    · cases h
    · rename_i hno
      injection h with h
      left
      refine ⟨?_, h.symm⟩
      rw [List.countP_eq_zero]
      intro x hx hs
      apply hno
      rw [List.any_eq_true]
      refine ⟨x, hx, ?_⟩
      cases x <;> simp_all [sleepsForItems]

/-- How the queue's size changes in a critical section, for single-item calls. -/
theorem size_change {P : Type} {l : List P} {c : Call P} (hs : Single c) :
    (apply l c).1.length ≤ l.length + (if signals c then 1 else 0) ∧
    (isConsumer c = true → (apply l c).1.length ≤ l.length - 1 ∧ signals c = false) := by
  cases c with
  | push x => simp [apply, signals, isConsumer]
  | pushN xs => simp only [Single] at hs; simp [apply, signals, isConsumer]; omega
  | pop t => simp [apply, signals, isConsumer]
  | popN n t => simp only [Single] at hs; simp [apply, signals, isConsumer]; omega
  | clear => simp [apply, signals, isConsumer]
  | clearAndPush x => simp [apply, signals, isConsumer]
  | waitEmpty t => simp [apply, signals, isConsumer]
  | count => simp [apply, signals, isConsumer]

theorem set_self_ne {α : Type} (l : List α) (i : Nat) (x y : α) (h : l[i]? = some x) (j : Nat) (z : α) (hj : l[j]? = some z)
    (hne : i ≠ j) : (l.set j y)[i]? = some x := by
  rw [List.getElem?_set_ne (Ne.symm hne)]; exact h

theorem step_winv {P : Type} {s s' : State P} {a : Action P} {l : List P} (H : SInv s l) (W : WInv s)
    (ha : match a with | .call _ c => Single c | _ => True) (h : step s a = some s') : WInv s' := by
  have mem : ∀ {t : Nat} {x : TS P}, s.th[t]? = some x → x ∈ s.th := fun h => List.mem_of_getElem? h
  -- replacing one thread's state without touching the queue
  have plain : ∀ (t : Nat) (x y : TS P) (lk : Option Nat) (log : _), s.th[t]? = some x →
      (∀ c, callOf y = some c → Single c) →
      (sleepsForItems y = true → sleepsForItems x = true ∨ s.q.size = 0) → (seeksItems x = true → seeksItems y = true ∨ s.q.size = 0) →
      WInv { s with lock := lk, th := s.th.set t y, log := log } := by
    intro t x y lk log hx hy h1 h2
    have c1 := countP_set' sleepsForItems s.th t x y hx
    have c2 := countP_set' seeksItems s.th t x y hx
    refine ⟨?_, ?_⟩
    · intro st hst c hc
      rcases mem_set' hst with rfl | hst
      · exact hy c hc
      · exact W.single st hst c hc
    · intro hpos
      simp only at hpos ⊢
      by_cases hz : s.q.size = 0
      · rw [hz]; omega
      · have hw := W.wake
        have h1' : sleepsForItems y = true → sleepsForItems x = true := fun h => (h1 h).resolve_right hz
        have h2' : seeksItems x = true → seeksItems y = true := fun h => (h2 h).resolve_right hz
        have k1 : (if sleepsForItems y = true then 1 else 0) ≤ (if sleepsForItems x = true then 1 else 0) := by
          split
          · rw [if_pos (h1' (by assumption))]; omega
          · omega
        have k2 : (if seeksItems x = true then 1 else 0) ≤ (if seeksItems y = true then 1 else 0) := by
          split
          · rw [if_pos (h2' (by assumption))]; omega
          · omega
        have := hw (by omega)
        omega
  unfold step at h
  split at h
  · split at h
    · rename_i t c hc
      injection h with h; subst h
      exact plain _ _ _ _ _ hc (by intro c' hc'; injection hc' with hc'; subst hc'; exact ha) (by simp [sleepsForItems]) (by simp [seeksItems])
    · cases h
  · rename_i t
    split at h
    · rename_i c hl hc
      injection h with h; subst h
      exact plain _ _ _ _ _ hc (fun c' hc' => W.single _ (mem hc) c' hc') (by simp [sleepsForItems]) (by simp [seeksItems])
    · rename_i c hl hc
      injection h with h; subst h
      exact plain _ _ _ _ _ hc (fun c' hc' => W.single _ (mem hc) c' hc') (by simp [sleepsForItems]) (fun h => Or.inl h)
    · rename_i c hl hc
      injection h with h; subst h
      exact plain _ _ _ _ _ hc (fun c' hc' => W.single _ (mem hc) c' hc') (by simp [sleepsForItems]) (by simp [seeksItems])
    · cases h
  · rename_i t
    split at h
    · rename_i c hc
      split at h
      · rename_i hw
        injection h with h; subst h
        have hz : isConsumer c = true → s.q.size = 0 := by
          intro hcons
          have := hw.2
          cases c <;> simp_all [mustWait, isConsumer]
        refine plain _ _ _ _ _ hc (fun c' hc' => W.single _ (mem hc) c' hc') ?_ ?_
        · intro hs; exact Or.inr (hz (by simpa [sleepsForItems] using hs))
        · intro hs; exact Or.inr (hz (by simpa [seeksItems] using hs))
      · cases h
    · cases h
  · split at h
    · rename_i t c hc
      split at h
      · injection h with h; subst h
        exact plain _ _ _ _ _ hc (fun c' hc' => W.single _ (mem hc) c' hc') (by simp [sleepsForItems]) (by simp [seeksItems])
      · cases h
    · cases h
  · split at h
    · rename_i t c hc
      injection h with h; subst h
      exact plain _ _ _ _ _ hc (fun c' hc' => W.single _ (mem hc) c' hc') (by simp [sleepsForItems]) (by simp [seeksItems])
    · cases h
  · rename_i t wakes
    split at h
    · rename_i c hc
      split at h
      · rename_i hw
        have hsing : Single c := W.single _ (mem hc) c rfl
        obtain ⟨q', e, I'⟩ := body_spec H.inv c
        simp only [e, Option.bind_eq_bind, Option.bind_some] at h
        obtain ⟨z1, z2⟩ := size_change (l := l) hsing
        have hsz : q'.size = (apply l c).1.length := I'.size
        have hsz0 : s.q.size = l.length := H.inv.size
        -- after the broadcast
        generalize hth : (if broadcasts q' c then s.th.map wakeEmpty else s.th) = th1 at h
        have g1 : th1.countP sleepsForItems = s.th.countP sleepsForItems ∧ th1.countP seeksItems = s.th.countP seeksItems := by
          rw [← hth]; split
          · exact countP_wakeEmpty _
          · exact ⟨rfl, rfl⟩
        have g2 : ∀ st ∈ th1, ∀ c, callOf st = some c → Single c := by
          rw [← hth]
          intro st hst c' hc'
          split at hst
          · obtain ⟨x, hx, rfl⟩ := List.mem_map.mp hst
            rw [callOf_wakeEmpty] at hc'
            exact W.single x hx c' hc'
          · exact W.single st hst c' hc'
        have g3 : th1[t]? = some (.inside c) := by
          rw [← hth]; split
          · rw [List.getElem?_map, hc]; rfl
          · exact hc
        have fin : ∀ th2 : List (TS P), th2[t]? = some (.inside c) → (∀ st ∈ th2, ∀ c, callOf st = some c → Single c) →
            (0 < th2.countP sleepsForItems → l.length + (if signals c then 1 else 0) ≤ th2.countP seeksItems) →
            ∀ log, WInv { s with q := q', th := th2.set t (.leaving c), log := log } := by
          intro th2 k1 k2 k3 log
          have c1 := countP_set' sleepsForItems th2 t (.inside c) (.leaving c) k1
          have c2 := countP_set' seeksItems th2 t (.inside c) (.leaving c) k1
          refine ⟨?_, ?_⟩
          · intro st hst c' hc'
            rcases mem_set' hst with rfl | hst
            · exact k2 _ (List.mem_of_getElem? k1) c' hc'
            · exact k2 st hst c' hc'
          · intro hpos
            simp only at hpos ⊢
            simp only [sleepsForItems, Bool.false_eq_true, if_false] at c1
            rw [show seeksItems (TS.inside c) = isConsumer c from rfl, show seeksItems (TS.leaving c) = false from rfl] at c2
            simp only [Bool.false_eq_true, if_false] at c2
            have := k3 (by omega)
            rw [hsz]
            by_cases hcons : isConsumer c = true
            · obtain ⟨y1, y2⟩ := z2 hcons
              rw [if_pos hcons] at c2
              rw [y2] at this
              simp only [Bool.false_eq_true, if_false] at this
              omega
            · rw [if_neg hcons] at c2; omega
        split at h
        · rename_i hsg
          cases hsig : signal th1 wakes with
          | none => rw [hsig] at h; cases h
          | some th2 =>
            rw [hsig] at h
            simp only [Option.bind_some] at h
            injection h with h; subst h
            rcases signal_spec hsig with ⟨n0, rfl⟩ | ⟨t', c', hcons, ht', rfl⟩
            · exact fin th2 g3 g2 (by intro h; omega) _
            · have htt : t ≠ t' := by
                intro he; subst he; rw [g3] at ht'; cases ht'
              have c1 := countP_set' sleepsForItems th1 t' _ (.woken c' false) ht'
              have c2 := countP_set' seeksItems th1 t' _ (.woken c' false) ht'
              simp only [sleepsForItems, seeksItems, hcons, Bool.false_eq_true, if_false, if_true] at c1 c2
              refine fin _ (set_self_ne _ _ _ _ g3 _ _ ht' htt) ?_ ?_ _
              · intro st hst c'' hc''
                rcases mem_set' hst with rfl | hst
                · exact g2 _ (List.mem_of_getElem? ht') c'' hc''
                · exact g2 st hst c'' hc''
              · intro _
                have := W.wake (by omega)
                rw [if_pos hsg]; omega
        · rename_i hsg
          injection h with h; subst h
          refine fin th1 g3 g2 ?_ _
          intro hpos
          have := W.wake (by omega)
          rw [if_neg hsg]; omega
      · cases h
    · cases h
  · rename_i t
    split at h
    · rename_i c hc
      split at h
      · injection h with h; subst h
        exact plain _ _ _ _ _ hc (by intro c hc; cases hc) (by simp [sleepsForItems]) (by simp [seeksItems])
      · cases h
    · cases h

theorem run_winv {P : Type} (as : List (Action P)) : ∀ {s s' : State P} {l : List P}, SInv s l → WInv s → CallsOk Single as →
    run s as = some s' → WInv s' := by
  induction as with
  | nil => intro s s' l H W _ h; injection h with h; subst h; exact W
  | cons a as ih =>
    intro s s' l H W hok h
    simp only [run] at h
    cases hs : step s a with
    | none => rw [hs] at h; cases h
    | some s1 =>
      rw [hs] at h
      obtain ⟨l1, H1⟩ := step_inv H hs
      exact ih H1 (step_winv H W (hok a (by simp)) hs) (fun b hb => hok b (by simp [hb])) h

theorem init_winv {P : Type} (cap n : Nat) : WInv (init cap n : State P) := by
  refine ⟨?_, ?_⟩
  · intro st hst c hc
    rw [(List.mem_replicate.mp hst).2] at hc; cases hc
  · intro h
    simp only [init, List.countP_replicate] at h
    simp [sleepsForItems] at h

theorem step_einv {P : Type} {s s' : State P} {a : Action P} {l : List P} (H : SInv s l) (E : EInv s)
    (h : step s a = some s') : EInv s' := by
  have plain : ∀ (t : Nat) (y : TS P) (lk : Option Nat) (log : _),
      (sleepsForEmpty y = true → s.q.size ≠ 0) → EInv { s with lock := lk, th := s.th.set t y, log := log } := by
    intro t y lk log hy hz st hst
    rcases mem_set' hst with rfl | hst
    · cases he : sleepsForEmpty st
      · rfl
      · exact absurd hz (hy he)
    · exact E hz st hst
  unfold step at h
  split at h
  · split at h
    · injection h with h; subst h; exact plain _ _ _ _ (by simp [sleepsForEmpty])
    · cases h
  · split at h
    · injection h with h; subst h; exact plain _ _ _ _ (by simp [sleepsForEmpty])
    · injection h with h; subst h; exact plain _ _ _ _ (by simp [sleepsForEmpty])
    · injection h with h; subst h; exact plain _ _ _ _ (by simp [sleepsForEmpty])
    · cases h
  · rename_i t
    split at h
    · rename_i c hc
      split at h
      · rename_i hw
        injection h with h; subst h
        refine plain _ _ _ _ ?_
        intro hs
        have := hw.2
        cases c <;> simp_all [mustWait, sleepsForEmpty, isWaitEmpty]
      · cases h
    · cases h
  · split at h
    · split at h
      · injection h with h; subst h; exact plain _ _ _ _ (by simp [sleepsForEmpty])
      · cases h
    · cases h
  · split at h
    · injection h with h; subst h; exact plain _ _ _ _ (by simp [sleepsForEmpty])
    · cases h
  · rename_i t wakes
    split at h
    · rename_i c hc
      split at h
      · rename_i hw
        obtain ⟨q', e, I'⟩ := body_spec H.inv c
        simp only [e, Option.bind_eq_bind, Option.bind_some] at h
        have hsz : q'.size = (apply l c).1.length := I'.size
        have hsz0 : s.q.size = l.length := H.inv.size
        generalize hth : (if broadcasts q' c then s.th.map wakeEmpty else s.th) = th1 at h
        have g1 : q'.size = 0 → ∀ st ∈ th1, sleepsForEmpty st = false := by
          intro hz
          rw [← hth]
          by_cases hb : broadcasts q' c = true
          · rw [if_pos hb]
            intro st hst
            obtain ⟨x, hx, rfl⟩ := List.mem_map.mp hst
            exact wakeEmpty_sleeps x
          · rw [if_neg hb]
            have h0 : s.q.size = 0 := by
              rw [hsz0]
              rw [hsz] at hz
              cases c with
              | push x => simp [apply] at hz
              | pushN xs => simp [apply] at hz; simp [hz.1]
              | pop t => exact absurd (by simp [broadcasts, hsz, hz]) hb
              | popN n t => exact absurd (by simp [broadcasts, hsz, hz]) hb
              | clear => exact absurd (by simp [broadcasts]) hb
              | clearAndPush x => simp [apply] at hz
              | waitEmpty t => simpa [apply] using hz
              | count => simpa [apply] using hz
            exact E h0
        split at h
        · cases hsig : signal th1 wakes with
          | none => rw [hsig] at h; cases h
          | some th2 =>
            rw [hsig] at h
            simp only [Option.bind_some] at h
            injection h with h; subst h
            intro hz st hst
            rcases mem_set' hst with rfl | hst
            · rfl
            · rcases signal_spec hsig with ⟨n0, rfl⟩ | ⟨t', c', hcons, ht', rfl⟩
              · exact g1 hz st hst
              · rcases mem_set' hst with rfl | hst
                · rfl
                · exact g1 hz st hst
        · injection h with h; subst h
          intro hz st hst
          rcases mem_set' hst with rfl | hst
          · rfl
          · exact g1 hz st hst
      · cases h
    · cases h
  · split at h
    · split at h
      · injection h with h; subst h; exact plain _ _ _ _ (by simp [sleepsForEmpty])
      · cases h
    · cases h

theorem run_einv {P : Type} (as : List (Action P)) : ∀ {s s' : State P} {l : List P}, SInv s l → EInv s →
    run s as = some s' → EInv s' := by
  induction as with
  | nil => intro s s' l H W h; injection h with h; subst h; exact W
  | cons a as ih =>
    intro s s' l H W h
    simp only [run] at h
    cases hs : step s a with
    | none => rw [hs] at h; cases h
    | some s1 =>
      rw [hs] at h
      obtain ⟨l1, H1⟩ := step_inv H hs
      exact ih H1 (step_einv H W hs) h

theorem init_einv {P : Type} (cap n : Nat) : EInv (init cap n : State P) := by
  intro _ st hst
  rw [(List.mem_replicate.mp hst).2]; rfl

end TQT
