import Verif.Spec.CleanupThreads
import Mathlib.Data.List.Induction
/-! # C181: cleanup functions and several threads -/
namespace CleanupThreads
open CleanupThreadsSpec

/-- The list of nodes from `p` on: addresses and functions. -/
def Chain (heap : Nat → Option Node) : Option Nat → List (Nat × Nat) → Prop
  | p, [] => p = none
  | p, (a, f) :: l => p = some a ∧ ∃ q, heap a = some ⟨some f, some q⟩ ∧ Chain heap q l

theorem Chain.congr {h h' : Nat → Option Node} : ∀ {l : List (Nat × Nat)} {p : Option Nat}, (∀ x ∈ l, h' x.1 = h x.1) → Chain h p l → Chain h' p l
  | [], _, _, hc => hc
  | (a, f) :: l, p, he, ⟨h1, q, h2, h3⟩ => ⟨h1, q, by rw [he (a, f) (by simp), h2], Chain.congr (fun x hx => he x (by simp [hx])) h3⟩

/-- The heap has exactly the nodes at the addresses `as`. -/
def Dom (heap : Nat → Option Node) (as : List Nat) : Prop := as.Nodup ∧ ∀ a, heap a ≠ none ↔ a ∈ as

/-- Threads that do not hold the mutex. -/
def Out (pc : Pc) : Prop := pc = .idle ∨ pc = .exiting

/-- What holds of the list and the events while the holder of the mutex is at `pc`. -/
def Phase (s : State) (pc : Pc) (w : List Nat) : Prop :=
  match pc with
  | .idle | .exiting => False
  | .regLocked _ | .regStored | .callLocked _ => ∃ l, Chain s.heap s.head l ∧ Dom s.heap (l.map (·.1)) ∧ w = l.map (·.2)
  | .regAlloc _ p => ∃ l, Chain s.heap s.head l ∧ Dom s.heap (p :: l.map (·.1)) ∧ w = l.map (·.2)
  | .regFn f p => ∃ l, Chain s.heap s.head l ∧ Dom s.heap (p :: l.map (·.1)) ∧ w = l.map (·.2) ∧ ∃ n, s.heap p = some ⟨some f, n⟩
  | .regNext f p => ∃ l, Chain s.heap s.head l ∧ Dom s.heap (p :: l.map (·.1)) ∧ w = l.map (·.2) ∧ s.heap p = some ⟨some f, some s.head⟩
  | .loop p _ => ∃ l, Chain s.heap p l ∧ Dom s.heap (l.map (·.1)) ∧ w = l.map (·.2)
  | .ran cur _ => ∃ l f, Chain s.heap (some cur) ((cur, f) :: l) ∧ Dom s.heap (cur :: l.map (·.1)) ∧ w = l.map (·.2)
  | .advanced cur p _ => ∃ l, Chain s.heap p l ∧ Dom s.heap (cur :: l.map (·.1)) ∧ w = l.map (·.2)
  | .cleared _ => s.head = none ∧ Dom s.heap [] ∧ w = []

/-- The invariant; `w` are the functions waiting. -/
structure Inv (s : State) (w : List Nat) : Prop where
  out : ∀ (t : Nat) th, s.threads[t]? = some th → s.mutex ≠ some t → Out th.pc
  free : s.mutex = none → ∃ l, Chain s.heap s.head l ∧ Dom s.heap (l.map (·.1)) ∧ w = l.map (·.2)
  held : ∀ t, s.mutex = some t → ∃ th, s.threads[t]? = some th ∧ Phase s th.pc w
  events : waiting s.trace = some (w, s.exited)

theorem waiting_snoc (es : List Event) (e : Event) : waiting (es ++ [e]) = (waiting es).bind fun x => effect x e := by
  simp [waiting, List.foldlM_append]

theorem inv_init (ops : List (List Op)) : Inv (init ops) [] := by
  refine ⟨?_, fun _ => ⟨[], rfl, ⟨by simp, by simp [init]⟩, rfl⟩, (by intro t h; cases h), rfl⟩
  intro t th h _
  simp only [init, List.getElem?_map, Option.map_eq_some_iff] at h
  obtain ⟨o, _, rfl⟩ := h
  exact .inl rfl

/-- The other threads stay where they are. -/
theorem out_set {s : State} {w : List Nat} (h : Inv s w) {t : Nat} {pc : Pc} {ops : List Op} {m : Option Nat} (hm : m = some t ∨ (Out pc ∧ m = none))
    (hs : s.mutex = none ∨ s.mutex = some t) : ∀ (u : Nat) th, (s.threads.set t ⟨pc, ops⟩)[u]? = some th → m ≠ some u → Out th.pc := by
  intro u th hu hmu
  by_cases htu : t = u
  · subst htu
    rcases hm with hm | hm
    · exact absurd hm hmu
    · rw [List.getElem?_set] at hu
      simp only [if_true] at hu
      split at hu
      · injection hu with hu; subst hu; exact hm.1
      · cases hu
  · rw [List.getElem?_set, if_neg htu] at hu
    refine h.out u th hu ?_
    rcases hs with hs | hs <;> rw [hs]
    · simp
    · intro he; injection he with he; exact htu he

theorem held_set {s : State} {t : Nat} {th0 : Thread} (ht : s.threads[t]? = some th0) {pc : Pc} {ops : List Op} {s' : State} {w : List Nat}
    (hth : s'.threads = s.threads.set t ⟨pc, ops⟩) (hp : Phase s' pc w) :
    ∀ u, some t = some u → ∃ th, s'.threads[u]? = some th ∧ Phase s' th.pc w := by
  intro u hu
  injection hu with hu; subst hu
  refine ⟨⟨pc, ops⟩, ?_, hp⟩
  rw [hth, List.getElem?_set, if_pos rfl, if_pos]
  exact (List.getElem?_eq_some_iff.1 ht).1

/-- A step from a state of the invariant is defined and keeps it. -/
theorem inv_step {s : State} {w : List Nat} (h : Inv s w) (t p : Nat) :
    step s t p ≠ .undefined ∧ ∀ s', step s t p = .ok s' → ∃ w', Inv s' w' := by
  unfold step
  by_cases hex : s.exited = true
  · rw [if_pos hex]; simp
  rw [if_neg hex]
  have hexf : s.exited = false := by simpa using hex
  cases hth : s.threads[t]? with
  | none => simp
  | some th =>
    obtain ⟨pc, ops⟩ := th
    have hout : ∀ {Q : Prop}, ¬ Out pc → (s.mutex = some t → Phase s pc w → Q) → Q := by
      intro Q hpc hQ
      by_cases hm : s.mutex = some t
      · obtain ⟨th, hth', hph⟩ := h.held t hm
        rw [hth] at hth'; injection hth' with hth'; subst hth'
        exact hQ hm hph
      · exact absurd (h.out t _ hth hm) hpc
    have hev : ∀ e x, effect (w, false) e = some x → waiting (s.trace ++ [e]) = some x := by
      intro e x hx
      rw [waiting_snoc, h.events, hexf]; exact hx
    cases pc with
    | idle =>
      cases ops with
      | nil => simp
      | cons o ops =>
        have lock : ∀ (pc' : Pc), (Phase { s.to t pc' ops with mutex := some t } pc' w ↔ ∃ l, Chain s.heap s.head l ∧ Dom s.heap (l.map (·.1)) ∧ w = l.map (·.2)) →
            s.mutex = none → ∃ w', Inv { s.to t pc' ops with mutex := some t } w' := by
          intro pc' hp hm
          exact ⟨w, out_set h (.inl rfl) (.inl hm), (by intro h'; cases h'), held_set hth rfl (hp.2 (h.free hm)), h.events⟩
        cases o with
        | register f =>
          by_cases hm : s.mutex = none
          · simp only [hm, if_true]
            refine ⟨by simp, ?_⟩
            intro s' hs'; injection hs' with hs'; subst hs'
            exact lock _ Iff.rfl hm
          · simp [hm]
        | call =>
          by_cases hm : s.mutex = none
          · simp only [hm, if_true]
            refine ⟨by simp, ?_⟩
            intro s' hs'; injection hs' with hs'; subst hs'
            exact lock _ Iff.rfl hm
          · simp [hm]
        | exit =>
          by_cases hm : s.mutex = none
          · simp only [hm, if_true]
            refine ⟨by simp, ?_⟩
            intro s' hs'; injection hs' with hs'; subst hs'
            exact lock _ Iff.rfl hm
          · simp [hm]
    | exiting =>
      refine ⟨by simp, ?_⟩
      intro s' hs'; injection hs' with hs'; subst hs'
      refine ⟨w, ?_, h.free, ?_, hev .exited _ rfl⟩
      · intro u th hu hmu
        by_cases htu : t = u
        · subst htu
          simp only [State.to, List.getElem?_set, if_true] at hu
          split at hu
          · injection hu with hu; subst hu; exact .inl rfl
          · cases hu
        · simp only [State.to, List.getElem?_set, if_neg htu] at hu
          exact h.out u th hu hmu
      · intro u hu
        obtain ⟨th, h1, h2⟩ := h.held u hu
        by_cases htu : t = u
        · subst htu
          rw [hth] at h1; injection h1 with h1; subst h1; exact absurd h2 (by simp [Phase])
        · exact ⟨th, by simp only [State.to, List.getElem?_set, if_neg htu]; exact h1, h2⟩
    | regLocked f =>
      refine hout (by simp [Out]) fun hm ⟨l, hc, hd, hw⟩ => ?_
      cases hp : s.heap p with
      | some n => simp
      | none =>
        refine ⟨by simp, ?_⟩
        intro s' hs'; injection hs' with hs'; subst hs'
        have hpl : p ∉ l.map (·.1) := fun hmem => (hd.2 p).2 hmem hp
        refine ⟨w, out_set h (.inl hm) (.inr hm), by intro h'; exact absurd (hm.symm.trans h') (by simp), ?_, h.events⟩
        intro u hu
        refine held_set hth rfl ?_ u (hm.symm.trans hu)
        refine ⟨l, hc.congr ?_, ⟨List.nodup_cons.2 ⟨hpl, hd.1⟩, ?_⟩, hw⟩
        · intro x hx
          have : x.1 ≠ p := fun he => hpl (he ▸ List.mem_map_of_mem hx)
          simp [this]
        · intro a
          by_cases ha : a = p
          · simp [ha]
          · simp only [if_neg ha, List.mem_cons, ha, false_or]; exact hd.2 a
    | regAlloc f q =>
      refine hout (by simp [Out]) fun hm ⟨l, hc, hd, hw⟩ => ?_
      have hq := (hd.2 q).2 (by simp)
      have hql := (List.nodup_cons.1 hd.1).1
      cases hp : s.heap q with
      | none => exact absurd hp hq
      | some n =>
        simp only [hp]
        refine ⟨by simp, ?_⟩
        intro s' hs'; injection hs' with hs'; subst hs'
        refine ⟨w, out_set h (.inl hm) (.inr hm), by intro h'; exact absurd (hm.symm.trans h') (by simp), ?_, h.events⟩
        intro u hu
        refine held_set hth rfl ?_ u (hm.symm.trans hu)
        refine ⟨l, hc.congr ?_, ⟨hd.1, ?_⟩, hw, n.next, by simp⟩
        · intro x hx
          have : x.1 ≠ q := fun he => hql (he ▸ List.mem_map_of_mem hx)
          simp [this]
        · intro a
          by_cases ha : a = q
          · simp [ha]
          · simp only [if_neg ha]; exact hd.2 a
    | regFn f q =>
      refine hout (by simp [Out]) fun hm ⟨l, hc, hd, hw, n, hn⟩ => ?_
      have hql := (List.nodup_cons.1 hd.1).1
      simp only [hn]
      refine ⟨by simp, ?_⟩
      intro s' hs'; injection hs' with hs'; subst hs'
      refine ⟨w, out_set h (.inl hm) (.inr hm), by intro h'; exact absurd (hm.symm.trans h') (by simp), ?_, h.events⟩
      intro u hu
      refine held_set hth rfl ?_ u (hm.symm.trans hu)
      refine ⟨l, hc.congr ?_, ⟨hd.1, ?_⟩, hw, by simp [State.to]⟩
      · intro x hx
        have : x.1 ≠ q := fun he => hql (he ▸ List.mem_map_of_mem hx)
        simp [this]
      · intro a
        by_cases ha : a = q
        · simp [ha]
        · simp only [if_neg ha]; exact hd.2 a
    | regNext f q =>
      refine hout (by simp [Out]) fun hm ⟨l, hc, hd, hw, hn⟩ => ?_
      refine ⟨by simp, ?_⟩
      intro s' hs'; injection hs' with hs'; subst hs'
      refine ⟨f :: w, out_set h (.inl hm) (.inr hm), by intro h'; exact absurd (hm.symm.trans h') (by simp), ?_, hexf ▸ hev (.registered t f) _ rfl⟩
      intro u hu
      refine held_set hth rfl ?_ u (hm.symm.trans hu)
      exact ⟨(q, f) :: l, ⟨rfl, s.head, hn, hc⟩, hd, by simp [hw]⟩
    | regStored =>
      refine hout (by simp [Out]) fun hm hl => ?_
      refine ⟨by simp, ?_⟩
      intro s' hs'; injection hs' with hs'; subst hs'
      exact ⟨w, out_set h (.inr ⟨.inl rfl, rfl⟩) (.inr hm), fun _ => hl, (by intro u hu; cases hu), h.events⟩
    | callLocked ex =>
      refine hout (by simp [Out]) fun hm hl => ?_
      refine ⟨by simp, ?_⟩
      intro s' hs'; injection hs' with hs'; subst hs'
      refine ⟨w, out_set h (.inl hm) (.inr hm), by intro h'; exact absurd (hm.symm.trans h') (by simp), ?_, h.events⟩
      intro u hu
      refine held_set (pc := .loop s.head ex) hth rfl ?_ u (hm.symm.trans hu)
      exact hl
    | loop q ex =>
      refine hout (by simp [Out]) fun hm ⟨l, hc, hd, hw⟩ => ?_
      cases q with
      | none =>
        refine ⟨by simp, ?_⟩
        intro s' hs'; injection hs' with hs'; subst hs'
        have hl : l = [] := by cases l with | nil => rfl | cons a b => obtain ⟨a1, a2⟩ := a; cases hc.1
        subst hl
        refine ⟨w, out_set h (.inl hm) (.inr hm), by intro h'; exact absurd (hm.symm.trans h') (by simp), ?_, h.events⟩
        intro u hu
        refine held_set hth rfl ?_ u (hm.symm.trans hu)
        exact ⟨rfl, hd, hw⟩
      | some cur =>
        obtain ⟨a, f, l, rfl⟩ : ∃ a f l', l = (a, f) :: l' := by
          cases l with
          | nil => cases hc
          | cons a b => obtain ⟨a1, a2⟩ := a; exact ⟨_, _, _, rfl⟩
        have ha := hc.1
        injection ha with ha; subst ha
        obtain ⟨q, hq, hc'⟩ := hc.2
        simp only [hq]
        refine ⟨by simp, ?_⟩
        intro s' hs'; injection hs' with hs'; subst hs'
        refine ⟨l.map (·.2), out_set h (.inl hm) (.inr hm), by intro h'; exact absurd (hm.symm.trans h') (by simp), ?_,
          hexf ▸ hev (.run t f) _ (by rw [hw]; simp [effect])⟩
        intro u hu
        refine held_set hth rfl ?_ u (hm.symm.trans hu)
        exact ⟨l, f, hc, hd, rfl⟩
    | ran cur ex =>
      refine hout (by simp [Out]) fun hm ⟨l, f, hc, hd, hw⟩ => ?_
      obtain ⟨q, hq, hc'⟩ := hc.2
      simp only [hq]
      refine ⟨by simp, ?_⟩
      intro s' hs'; injection hs' with hs'; subst hs'
      refine ⟨w, out_set h (.inl hm) (.inr hm), by intro h'; exact absurd (hm.symm.trans h') (by simp), ?_, h.events⟩
      intro u hu
      refine held_set hth rfl ?_ u (hm.symm.trans hu)
      exact ⟨l, hc', hd, hw⟩
    | advanced cur q ex =>
      refine hout (by simp [Out]) fun hm ⟨l, hc, hd, hw⟩ => ?_
      have hcn := (hd.2 cur).2 (by simp)
      have hcl := List.nodup_cons.1 hd.1
      cases hp : s.heap cur with
      | none => exact absurd hp hcn
      | some n =>
        simp only [hp]
        refine ⟨by simp, ?_⟩
        intro s' hs'; injection hs' with hs'; subst hs'
        refine ⟨w, out_set h (.inl hm) (.inr hm), by intro h'; exact absurd (hm.symm.trans h') (by simp), ?_, h.events⟩
        intro u hu
        refine held_set hth rfl ?_ u (hm.symm.trans hu)
        refine ⟨l, hc.congr ?_, ⟨hcl.2, ?_⟩, hw⟩
        · intro x hx
          have : x.1 ≠ cur := fun he => hcl.1 (he ▸ List.mem_map_of_mem hx)
          simp [this]
        · intro a
          by_cases ha : a = cur
          · subst ha; simpa using hcl.1
          · simp only [if_neg ha]; rw [hd.2 a]; simp [ha]
    | cleared ex =>
      refine hout (by simp [Out]) fun hm ⟨h1, h2, h3⟩ => ?_
      refine ⟨by simp, ?_⟩
      intro s' hs'; injection hs' with hs'; subst hs'
      refine ⟨w, out_set h (.inr ⟨?_, rfl⟩) (.inr hm), fun _ => ⟨[], h1, h2, h3⟩, (by intro u hu; cases hu), h.events⟩
      cases ex
      · exact .inl rfl
      · exact .inr rfl

theorem reach_inv {ops : List (List Op)} {s : State} (h : Reach ops s) : ∃ w, Inv s w := by
  induction h with
  | init => exact ⟨[], inv_init ops⟩
  | step s s' t p _ hs ih =>
    obtain ⟨w, hw⟩ := ih
    exact (inv_step hw t p).2 s' hs


/-! ## Program order -/

/-- The registration a thread is in the middle of. -/
def pending : Pc → List Nat
  | .regLocked f | .regAlloc f _ | .regFn f _ | .regNext f _ => [f]
  | _ => []

/-- What a thread has registered, is registering and will register is what its program says. -/
def Order (ops : List (List Op)) (s : State) : Prop :=
  s.threads.length = ops.length ∧ ∀ (t : Nat) th o, s.threads[t]? = some th → ops[t]? = some o →
    registeredBy t s.trace ++ (pending th.pc ++ registrations th.ops) = registrations o

theorem order_set {ops : List (List Op)} {s s' : State} (h : Order ops s) {t : Nat} {th th' : Thread} (ht : s.threads[t]? = some th)
    (hth : s'.threads = s.threads.set t th') (es : List Event) (htr : s'.trace = s.trace ++ es)
    (hother : ∀ u, u ≠ t → registeredBy u es = [])
    (hself : registeredBy t es ++ (pending th'.pc ++ registrations th'.ops) = pending th.pc ++ registrations th.ops) : Order ops s' := by
  refine ⟨by rw [hth, List.length_set]; exact h.1, ?_⟩
  intro u thu o hu ho
  have happ : ∀ v, registeredBy v s'.trace = registeredBy v s.trace ++ registeredBy v es := by
    intro v; rw [htr]; simp [registeredBy]
  rw [hth, List.getElem?_set] at hu
  by_cases hut : t = u
  · subst hut
    rw [if_pos rfl, if_pos (List.getElem?_eq_some_iff.1 ht).1] at hu
    injection hu with hu; subst hu
    rw [happ, List.append_assoc, hself]
    exact h.2 t th o ht ho
  · rw [if_neg hut] at hu
    rw [happ, hother u (fun h' => hut h'.symm), List.append_nil]
    exact h.2 u thu o hu ho

theorem order_step {ops : List (List Op)} {s s' : State} (h : Order ops s) {t p : Nat} (hs : step s t p = .ok s') : Order ops s' := by
  unfold step at hs
  split at hs
  · cases hs
  split at hs
  · cases hs
  rename_i pc o hth
  have ht := hth
  split at hs
  · split at hs
    · cases hs
    all_goals
      split at hs
      · injection hs with hs; subst hs
        exact order_set h ht rfl [] (by simp [State.to]) (by simp [registeredBy]) (by simp [registeredBy, pending, registrations])
      · cases hs
  · split at hs
    · cases hs
    · injection hs with hs; subst hs
      exact order_set h ht rfl [] (by simp [State.to]) (by simp [registeredBy]) (by simp [registeredBy, pending])
  · split at hs
    · cases hs
    · injection hs with hs; subst hs
      exact order_set h ht rfl [] (by simp [State.to]) (by simp [registeredBy]) (by simp [registeredBy, pending])
  · split at hs
    · cases hs
    · injection hs with hs; subst hs
      exact order_set h ht rfl [] (by simp [State.to]) (by simp [registeredBy]) (by simp [registeredBy, pending])
  · rename_i f q
    injection hs with hs; subst hs
    exact order_set h ht rfl [.registered t f] rfl (by intro u hu; simp [registeredBy]; exact fun h' => hu h'.symm) (by simp [registeredBy, pending])
  · injection hs with hs; subst hs
    exact order_set h ht rfl [] (by simp [State.to]) (by simp [registeredBy]) (by simp [registeredBy, pending])
  · injection hs with hs; subst hs
    exact order_set h ht rfl [] (by simp [State.to]) (by simp [registeredBy]) (by simp [registeredBy, pending])
  · injection hs with hs; subst hs
    exact order_set h ht rfl [] (by simp [State.to]) (by simp [registeredBy]) (by simp [registeredBy, pending])
  · split at hs
    · rename_i f _ _
      injection hs with hs; subst hs
      exact order_set h ht rfl [.run t f] rfl (by simp [registeredBy]) (by simp [registeredBy, pending])
    · cases hs
  · split at hs
    · injection hs with hs; subst hs
      exact order_set h ht rfl [] (by simp [State.to]) (by simp [registeredBy]) (by simp [registeredBy, pending])
    · cases hs
  · split at hs
    · cases hs
    · injection hs with hs; subst hs
      exact order_set h ht rfl [] (by simp [State.to]) (by simp [registeredBy]) (by simp [registeredBy, pending])
  · injection hs with hs; subst hs
    rename_i ex
    exact order_set h ht rfl [] (by simp [State.to]) (by simp [registeredBy]) (by cases ex <;> simp [registeredBy, pending])
  · injection hs with hs; subst hs
    exact order_set h ht rfl [.exited] rfl (by simp [registeredBy]) (by simp [registeredBy, pending])

theorem order_reach {ops : List (List Op)} {s : State} (h : Reach ops s) : Order ops s := by
  induction h with
  | init =>
    refine ⟨by simp [init], ?_⟩
    intro t th o h1 h2
    simp only [init, List.getElem?_map, h2, Option.map_some] at h1
    injection h1 with h1; subst h1; simp [registeredBy, pending, init]
  | step s s' t p _ hs ih => exact order_step ih hs


/-! ## How many steps there are -/

/-- Steps left at most, with three for every function waiting. -/
def pcCost : Pc → Nat
  | .idle => 0
  | .regLocked _ => 8
  | .regAlloc _ _ => 7
  | .regFn _ _ => 6
  | .regNext _ _ => 5
  | .regStored => 1
  | .callLocked _ => 4
  | .loop _ _ => 3
  | .ran _ _ => 5
  | .advanced _ _ _ => 4
  | .cleared _ => 2
  | .exiting => 1

def opCost : Op → Nat
  | .register _ => 9
  | _ => 5

def cost (th : Thread) : Nat := pcCost th.pc + (th.ops.map opCost).sum

theorem sum_set (l : List Thread) : ∀ (t : Nat) (a b : Thread), l[t]? = some a → ((l.set t b).map cost).sum + cost a = (l.map cost).sum + cost b := by
  induction l with
  | nil => intro t a b h; cases h
  | cons x l ih =>
    intro t a b h
    cases t with
    | zero => simp at h; subst h; simp; omega
    | succ t =>
      have := ih t a b (by simpa using h)
      simp only [List.set_cons_succ, List.map_cons, List.sum_cons]; omega

theorem cost_step {s s' : State} {w w' : List Nat} (h : waiting s.trace = some (w, s.exited)) (h' : waiting s'.trace = some (w', s'.exited)) {t p : Nat}
    (hs : step s t p = .ok s') : (s'.threads.map cost).sum + 3 * w'.length + 1 ≤ (s.threads.map cost).sum + 3 * w.length := by
  have same : s'.trace = s.trace → w' = w := by
    intro he; rw [he, h] at h'; injection h' with h'; injection h' with h1 h2; exact h1.symm
  have more : ∀ e, s'.trace = s.trace ++ [e] → effect (w, s.exited) e = some (w', s'.exited) := by
    intro e he; rw [he, waiting_snoc, h] at h'; exact h'
  have go : ∀ {a b : Thread}, s.threads[t]? = some a → s'.threads = s.threads.set t b → cost b + 3 * w'.length + 1 ≤ cost a + 3 * w.length →
      (s'.threads.map cost).sum + 3 * w'.length + 1 ≤ (s.threads.map cost).sum + 3 * w.length := by
    intro a b h1 h2 h3
    have := sum_set s.threads t a b h1
    rw [h2]; omega
  unfold step at hs
  split at hs
  · cases hs
  split at hs
  · cases hs
  rename_i pc o hth
  have ht := hth
  split at hs
  · split at hs
    · cases hs
    all_goals
      split at hs
      · injection hs with hs; subst hs
        exact go ht rfl (by rw [same rfl]; simp [cost, pcCost, opCost]; omega)
      · cases hs
  · split at hs
    · cases hs
    · injection hs with hs; subst hs
      exact go ht rfl (by rw [same rfl]; simp [cost, pcCost]; omega)
  · split at hs
    · cases hs
    · injection hs with hs; subst hs
      exact go ht rfl (by rw [same rfl]; simp [cost, pcCost]; omega)
  · split at hs
    · cases hs
    · injection hs with hs; subst hs
      exact go ht rfl (by rw [same rfl]; simp [cost, pcCost]; omega)
  · rename_i f q
    injection hs with hs; subst hs
    have he := more (.registered t f) rfl
    refine go ht rfl ?_
    have : w' = f :: w := by
      cases hx : s.exited <;> rw [hx] at he <;> simp [effect] at he
      exact he.1.symm
    rw [this]; simp [cost, pcCost]; omega
  · injection hs with hs; subst hs
    exact go ht rfl (by rw [same rfl]; simp [cost, pcCost]; omega)
  · injection hs with hs; subst hs
    exact go ht rfl (by rw [same rfl]; simp [cost, pcCost]; omega)
  · injection hs with hs; subst hs
    exact go ht rfl (by rw [same rfl]; simp [cost, pcCost]; omega)
  · split at hs
    · rename_i f _ _
      injection hs with hs; subst hs
      have he := more (.run t f) rfl
      refine go ht rfl ?_
      have : w.length = w'.length + 1 := by
        cases hx : s.exited <;> rw [hx] at he <;> cases w <;> simp [effect] at he
        simp [he.2.1]
      rw [this]; simp [cost, pcCost]; omega
    · cases hs
  · split at hs
    · injection hs with hs; subst hs
      exact go ht rfl (by rw [same rfl]; simp [cost, pcCost]; omega)
    · cases hs
  · split at hs
    · cases hs
    · injection hs with hs; subst hs
      exact go ht rfl (by rw [same rfl]; simp [cost, pcCost]; omega)
  · injection hs with hs; subst hs
    rename_i ex
    exact go ht rfl (by rw [same rfl]; cases ex <;> simp [cost, pcCost] <;> omega)
  · injection hs with hs; subst hs
    have he := more .exited rfl
    refine go ht rfl ?_
    have : w' = w := by
      cases hx : s.exited <;> rw [hx] at he <;> simp [effect] at he
      exact he.symm
    rw [this]; simp [cost, pcCost]; omega

/-- States after `n` steps. -/
inductive After (ops : List (List Op)) : Nat → State → Prop
  | init : After ops 0 (init ops)
  | step (n : Nat) (s s' : State) (t p : Nat) : After ops n s → step s t p = .ok s' → After ops (n + 1) s'

theorem After.reach {ops : List (List Op)} {n : Nat} {s : State} (h : After ops n s) : Reach ops s := by
  induction h with
  | init => exact .init
  | step n s s' t p _ hs ih => exact .step s s' t p ih hs

theorem fresh_address (as : List Nat) : ∃ p, p ∉ as := by
  refine ⟨as.sum + 1, fun h => ?_⟩
  have : ∀ (l : List Nat) x, x ∈ l → x ≤ l.sum := by
    intro l
    induction l with
    | nil => intro x hx; cases hx
    | cons a l ih =>
      intro x hx
      rcases List.mem_cons.1 hx with rfl | hx
      · simp
      · have := ih x hx; simp; omega
  have := this as _ h
  omega

theorem count_waiting (f : Nat) (es : List Event) : ∀ (w : List Nat) (x : Bool), waiting es = some (w, x) → timesRegistered f es = timesRun f es + w.count f := by
  induction es using List.reverseRecOn with
  | nil => intro w x h; simp [waiting] at h; obtain ⟨h1, _⟩ := h; subst h1; simp [timesRegistered, timesRun]
  | append_singleton es e ih =>
    intro w x h
    rw [waiting_snoc] at h
    cases hw : waiting es with
    | none => rw [hw] at h; cases h
    | some y =>
      obtain ⟨w0, x0⟩ := y
      have := ih w0 x0 hw
      rw [hw] at h
      simp only [Option.bind_some] at h
      cases x0 with
      | true => cases e <;> simp [effect] at h
      | false =>
        cases e with
        | registered t g =>
          simp only [effect, Option.some.injEq, Prod.mk.injEq] at h
          rw [← h.1]
          by_cases hg : g = f <;> simp [timesRegistered, timesRun, List.count_cons, hg] at this ⊢ <;> omega
        | run t g =>
          cases w0 with
          | nil => simp [effect] at h
          | cons g' w0 =>
            simp only [effect] at h
            split at h
            · rename_i hgg; subst hgg
              simp only [Option.some.injEq, Prod.mk.injEq] at h
              rw [← h.1]
              by_cases hg : g = f <;> simp [timesRegistered, timesRun, List.count_cons, hg] at this ⊢ <;> omega
            · cases h
        | exited =>
          simp only [effect, Option.some.injEq, Prod.mk.injEq] at h
          rw [← h.1]
          simpa [timesRegistered, timesRun] using this

end CleanupThreads

namespace CleanupThreadsSpec
open CleanupThreads

/-- C181. Under every schedule no access is undefined (no list node is used after it was freed or before it was filled in), and every function that
is run is the last registered of those waiting: so each registration is run at most once, last registered first. -/
theorem C181_last_registered_first (ops : List (List Op)) (s : State) (h : Reach ops s) :
    (∀ t p, step s t p ≠ .undefined) ∧ ∃ w, waiting s.trace = some (w, s.exited) ∧ ∀ f, timesRegistered f s.trace = timesRun f s.trace + w.count f := by
  obtain ⟨w, hw⟩ := reach_inv h
  exact ⟨fun t p => (inv_step hw t p).1, w, hw.events, fun f => count_waiting f s.trace w _ hw.events⟩

/-- C181. A thread that is between two calls has registered exactly the functions of its calls so far, in that order: no registration is lost. -/
theorem C181_no_registration_is_lost (ops : List (List Op)) (s : State) (h : Reach ops s) (t : Nat) (th : Thread) (o : List Op)
    (ht : s.threads[t]? = some th) (ho : ops[t]? = some o) (hb : Between th) : registeredBy t s.trace ++ registrations th.ops = registrations o := by
  have := (order_reach h).2 t th o ht ho
  rw [hb] at this
  simpa [pending] using this

/-- C181. When `CallCleanupFunctions` gives the mutex back, no function is waiting: all registered before it have been run. -/
theorem C181_cleanup_is_complete (ops : List (List Op)) (s s' : State) (h : Reach ops s) (t p : Nat) (ex : Bool) (rest : List Op)
    (ht : s.threads[t]? = some ⟨.cleared ex, rest⟩) (hs : step s t p = .ok s') :
    waiting s'.trace = some ([], false) ∧ s'.head = none ∧ ∀ a, s'.heap a = none := by
  obtain ⟨w, hw⟩ := reach_inv h
  have hm : s.mutex = some t := by
    refine Decidable.byContradiction fun hm => ?_
    have := hw.out t _ ht hm
    simp [Out] at this
  obtain ⟨th, h1, h2⟩ := hw.held t hm
  rw [ht] at h1; injection h1 with h1; subst h1
  obtain ⟨h3, h4, rfl⟩ := h2
  have he := hw.events
  unfold step at hs
  by_cases hx : s.exited = true
  · rw [if_pos hx] at hs; cases hs
  · rw [if_neg hx, ht] at hs
    injection hs with hs; subst hs
    have hx' : s.exited = false := by simpa using hx
    rw [hx'] at he
    exact ⟨he, h3, fun a => Decidable.byContradiction fun hn => by simpa using (h4.2 a).1 hn⟩

/-- C181. While no call is inside, memory holds one block for each function waiting and nothing else. -/
theorem C181_memory (ops : List (List Op)) (s : State) (h : Reach ops s) (hm : s.mutex = none) :
    ∃ (w as : List Nat), waiting s.trace = some (w, s.exited) ∧ as.length = w.length ∧ as.Nodup ∧ ∀ a, s.heap a ≠ none ↔ a ∈ as := by
  obtain ⟨w, hw⟩ := reach_inv h
  obtain ⟨l, _, hd, rfl⟩ := hw.free hm
  exact ⟨_, l.map (·.1), hw.events, by simp, hd.1, hd.2⟩

/-- C181. No deadlock: unless the process has ended, a thread can go on if any has something left to do. -/
theorem C181_no_deadlock (ops : List (List Op)) (s : State) (h : Reach ops s) (hx : s.exited = false)
    (hw : ∃ (t : Nat) (th : Thread), s.threads[t]? = some th ∧ ¬ (th.pc = .idle ∧ th.ops = [])) : ∃ t p s', step s t p = .ok s' := by
  obtain ⟨w, hi⟩ := reach_inv h
  have hx' : ¬ s.exited = true := by simp [hx]
  have found : ∀ t p, step s t p ≠ .blocked → ∃ t p s', step s t p = .ok s' := by
    intro t p hb
    cases hs : step s t p with
    | blocked => exact absurd hs hb
    | undefined => exact absurd hs (inv_step hi t p).1
    | ok s' => exact ⟨t, p, s', hs⟩
  cases hm : s.mutex with
  | none =>
    obtain ⟨t, ⟨pc, o⟩, ht, hn⟩ := hw
    refine found t 0 ?_
    unfold step
    rw [if_neg hx', ht]
    rcases hi.out t _ ht (by rw [hm]; simp) with hp | hp
    · simp only at hp; subst hp
      cases o with
      | nil => exact absurd ⟨rfl, rfl⟩ hn
      | cons o os => cases o <;> simp [hm]
    · simp only at hp; subst hp; simp
  | some t =>
    obtain ⟨⟨pc, o⟩, ht, hp⟩ := hi.held t hm
    have hfresh : ∃ p, s.heap p = none := by
      have : ∃ as, Dom s.heap as := by
        cases pc <;> simp only [Phase] at hp
        · obtain ⟨l, _, hd, _⟩ := hp; exact ⟨_, hd⟩
        · obtain ⟨l, _, hd, _⟩ := hp; exact ⟨_, hd⟩
        · obtain ⟨l, _, hd, _⟩ := hp; exact ⟨_, hd⟩
        · obtain ⟨l, _, hd, _⟩ := hp; exact ⟨_, hd⟩
        · obtain ⟨l, _, hd, _⟩ := hp; exact ⟨_, hd⟩
        · obtain ⟨l, _, hd, _⟩ := hp; exact ⟨_, hd⟩
        · obtain ⟨l, _, hd, _⟩ := hp; exact ⟨_, hd⟩
        · obtain ⟨l, _, _, hd, _⟩ := hp; exact ⟨_, hd⟩
        · obtain ⟨l, _, hd, _⟩ := hp; exact ⟨_, hd⟩
        · exact ⟨_, hp.2.1⟩
      obtain ⟨as, hd⟩ := this
      obtain ⟨p, hp⟩ := fresh_address as
      exact ⟨p, Decidable.byContradiction fun hn => hp ((hd.2 p).1 hn)⟩
    obtain ⟨p, hp0⟩ := hfresh
    refine found t p ?_
    unfold step
    rw [if_neg hx', ht]
    cases pc with
    | idle => exact absurd hp (by simp [Phase])
    | exiting => exact absurd hp (by simp [Phase])
    | regLocked f => simp [hp0]
    | regAlloc f q => simp only; split <;> simp
    | regFn f q => simp only; split <;> simp
    | regNext f q => simp
    | regStored => simp
    | callLocked ex => simp
    | loop q ex =>
      cases q with
      | none => simp
      | some q => simp only; split <;> simp
    | ran q ex => simp only; split <;> simp
    | advanced q r ex => simp only; split <;> simp
    | cleared ex => simp

/-- C181. Every schedule ends: there are at most nine steps for each call. -/
theorem C181_every_schedule_ends (ops : List (List Op)) (n : Nat) (s : State) (h : After ops n s) : n ≤ 9 * (ops.map List.length).sum := by
  have key : ∀ n s, After ops n s → ∃ w, Inv s w ∧ n + ((s.threads.map cost).sum + 3 * w.length) ≤ ((init ops).threads.map cost).sum := by
    intro n s h
    induction h with
    | init => exact ⟨[], inv_init ops, by simp⟩
    | step n s s' t p hr hs ih =>
      obtain ⟨w, hw, hn⟩ := ih
      obtain ⟨w', hw'⟩ := (inv_step hw t p).2 s' hs
      have := cost_step hw.events hw'.events hs
      exact ⟨w', hw', by omega⟩
  obtain ⟨w, _, hn⟩ := key n s h
  have : ((init ops).threads.map cost).sum ≤ 9 * (ops.map List.length).sum := by
    simp only [init, List.map_map]
    clear h hn key
    induction ops with
    | nil => simp
    | cons o ops ih =>
      have : (o.map opCost).sum ≤ 9 * o.length := by
        clear ih
        induction o with
        | nil => simp
        | cons a o ih => cases a <;> simp [opCost] <;> omega
      simp only [List.map_cons, List.sum_cons, Function.comp_apply, cost, pcCost] at ih ⊢
      omega
  omega

/-- Runs the schedule `(thread, address)`. -/
def runs (s : State) : List (Nat × Nat) → Option State
  | [] => some s
  | (t, p) :: r => match step s t p with | .ok s' => runs s' r | _ => none

theorem reach_runs {ops : List (List Op)} : ∀ (sch : List (Nat × Nat)) (s s' : State), Reach ops s → runs s sch = some s' → Reach ops s' := by
  intro sch
  induction sch with
  | nil => intro s s' h hr; simp [runs] at hr; exact hr ▸ h
  | cons x r ih =>
    intro s s' h hr
    obtain ⟨t, p⟩ := x
    simp only [runs] at hr
    split at hr
    · rename_i s1 h1; exact ih s1 s' (.step s s1 t p h h1) hr
    · cases hr

/-- Finding: that every registered function is run before the process ends is false. A thread that waits for the mutex while another one cleans up
registers its function after the loop and before `exit`: `RegisterCleanupFunction` returns, and the function is never run. -/
theorem C181_late_registration_negated :
    ∃ s, Reach [[.exit], [.register 7]] s ∧ s.exited = true ∧ (∀ th ∈ s.threads, Between th ∧ th.ops = []) ∧ waiting s.trace = some ([7], true) := by
  have h : (runs (init [[.exit], [.register 7]]) [(0, 0), (0, 0), (0, 0), (0, 0), (1, 0), (1, 5), (1, 0), (1, 0), (1, 0), (1, 0), (0, 0)]).isSome = true := by decide
  obtain ⟨s, hs⟩ := Option.isSome_iff_exists.1 h
  refine ⟨s, reach_runs _ _ _ .init hs, ?_, ?_, ?_⟩
  · have : (runs (init [[.exit], [.register 7]]) [(0, 0), (0, 0), (0, 0), (0, 0), (1, 0), (1, 5), (1, 0), (1, 0), (1, 0), (1, 0), (0, 0)]).map (·.exited) = some true := by decide
    rw [hs] at this; simpa using this
  · have : (runs (init [[.exit], [.register 7]]) [(0, 0), (0, 0), (0, 0), (0, 0), (1, 0), (1, 5), (1, 0), (1, 0), (1, 0), (1, 0), (0, 0)]).map (·.threads) = some [⟨.idle, []⟩, ⟨.idle, []⟩] := by rfl
    rw [hs] at this
    simp only [Option.map_some, Option.some.injEq] at this
    rw [this]; simp [Between]
  · have : (runs (init [[.exit], [.register 7]]) [(0, 0), (0, 0), (0, 0), (0, 0), (1, 0), (1, 5), (1, 0), (1, 0), (1, 0), (1, 0), (0, 0)]).map (·.trace) = some [.registered 1 7, .exited] := by rfl
    rw [hs] at this
    simp only [Option.map_some, Option.some.injEq] at this
    rw [this]; rfl

/-- Two registrations by one thread and a cleanup by another: 2 is run, then 1. -/
example : (runs (init [[.register 1, .register 2], [.call]]) ((List.replicate 12 (0, 5)).set 7 (0, 6) ++ List.replicate 10 (1, 0))).map (·.trace) =
    some [.registered 0 1, .registered 0 2, .run 1 2, .run 1 1] := by rfl

end CleanupThreadsSpec
