import Verif.Model.Monitor
/-! # What a module has to show about its critical sections, and what follows for every schedule -/
namespace Mon
open Lin

variable {M O C R S : Type} [DecidableEq C]

/-- The thread was woken on `c`, not by its time limit, and has not taken the mutex yet. -/
def wokenOn (code : Code M O C R) (c : C) : TS M O C R → Bool
  | .woken o false => code.cond o == c
  | _ => false

/-- What a credit says about `c`: `none`, nobody sleeps there; `some k`, if somebody sleeps there then at least `k` woken threads
are on their way. -/
def Valid (code : Code M O C R) (th : List (TS M O C R)) (c : C) : Option Nat → Prop
  | none => ∀ x ∈ th, sleepsOn code c x = false
  | some k => (∃ x ∈ th, sleepsOn code c x = true) → k ≤ th.countP (wokenOn code c)

def upd (cr : C → Option Nat) (c : C) (v : Option Nat) : C → Option Nat := fun d => if d = c then v else cr d

/-- What a module has to provide: the states of the sequential object, what they look like in memory, what the object may do, and what
the credits must be while the mutex is free. -/
structure Claims (M O C R S : Type) where
  Rep : M → S → Prop
  spec : S → O → S → R → Prop
  J : M → (C → Option Nat) → Prop
  ok : O → Prop
  waits : O → Prop      -- the operations that may come to wait

/-- The rest of a critical section, run alone, does what the object may do and leaves the credits right. -/
def Sec (cl : Claims M O C R S) (code : Code M O C R) (o : O) : Prog M C R → M → S → (C → Option Nat) → Prop
  | .lock _, _, _, _ => False
  | .unlock (.ret r), m, σ, cr => ∃ σ', cl.spec σ o σ' r ∧ cl.Rep m σ' ∧ cl.J m cr
  | .unlock _, _, _, _ => False
  | .acc f k, m, σ, cr => match f m with
    | some (m', b) => Sec cl code o (k b) m' σ cr
    | none => False
  | .wait, m, σ, cr => cl.waits o ∧ cl.Rep m σ ∧ cl.J m (upd cr (code.cond o) (some 0))
  | .signal c k, m, σ, cr => Sec cl code o k m σ (upd cr c ((cr c).map (· + 1)))
  | .broadcast c k, m, σ, cr => Sec cl code o k m σ (upd cr c none)
  | .ret _, _, _, _ => False

/-- The obligations. -/
structure CodeOk (cl : Claims M O C R S) (code : Code M O C R) : Prop where
  prog : ∀ o, cl.ok o → ∃ k, code.prog o = .lock k ∧ ∀ m σ cr, cl.Rep m σ → cl.J m cr → Sec cl code o k m σ cr
  woken : ∀ o, cl.ok o → cl.waits o → ∀ m σ cr, cl.Rep m σ → cl.J m cr →
    Sec cl code o (code.resume o false) m σ (upd cr (code.cond o) ((cr (code.cond o)).map (· - 1)))
  timed : ∀ o, cl.ok o → cl.waits o → code.limited o = true → ∀ m σ cr, cl.Rep m σ → cl.J m cr →
    Sec cl code o (code.resume o true) m σ cr

/-! ## Credits -/

theorem valid_of_none {code : Code M O C R} {th : List (TS M O C R)} {c : C} (h : Valid code th c none) (v : Option Nat) :
    Valid code th c v := by
  cases v with
  | none => exact h
  | some k =>
    rintro ⟨x, hx, hs⟩
    have hn : ∀ x ∈ th, sleepsOn code c x = false := h
    rw [hn x hx] at hs; cases hs

theorem valid_set {code : Code M O C R} {th : List (TS M O C R)} {c : C} {v : Option Nat} (h : Valid code th c v) {t : Nat}
    {x y : TS M O C R} (hx : th[t]? = some x) (hs : sleepsOn code c y = true → sleepsOn code c x = true)
    (hw : wokenOn code c x = true → wokenOn code c y = true) : Valid code (th.set t y) c v := by
  obtain ⟨ht, hxe⟩ := List.getElem?_eq_some_iff.1 hx
  have hmem : ∀ z ∈ th.set t y, sleepsOn code c z = true → ∃ z ∈ th, sleepsOn code c z = true := by
    intro z hz hzs
    rcases List.mem_or_eq_of_mem_set hz with h1 | h1
    · exact ⟨z, h1, hzs⟩
    · subst h1; exact ⟨x, hxe ▸ List.getElem_mem ht, hs hzs⟩
  cases v with
  | none =>
    intro z hz
    by_cases hzs : sleepsOn code c z = true
    · obtain ⟨w, hw1, hw2⟩ := hmem z hz hzs
      have hn : ∀ x ∈ th, sleepsOn code c x = false := h
      rw [hn w hw1] at hw2; cases hw2
    · simpa using hzs
  | some k =>
    rintro ⟨z, hz, hzs⟩
    have hk : k ≤ th.countP (wokenOn code c) := h (hmem z hz hzs)
    have hcp : th[t] = x := hxe
    rw [List.countP_set ht, hcp]
    by_cases h1 : wokenOn code c x = true
    · rw [if_pos h1, if_pos (hw h1)]
      omega
    · rw [if_neg h1]; omega

theorem valid_dec {code : Code M O C R} {th : List (TS M O C R)} {c : C} {v : Option Nat} (h : Valid code th c v) {t : Nat}
    {x y : TS M O C R} (hx : th[t]? = some x) (hs : sleepsOn code c y = false) : Valid code (th.set t y) c (v.map (· - 1)) := by
  obtain ⟨ht, hxe⟩ := List.getElem?_eq_some_iff.1 hx
  have hmem : ∀ z ∈ th.set t y, sleepsOn code c z = true → z ∈ th := by
    intro z hz hzs
    rcases List.mem_or_eq_of_mem_set hz with h1 | h1
    · exact h1
    · subst h1; rw [hs] at hzs; cases hzs
  cases v with
  | none =>
    intro z hz
    by_cases hzs : sleepsOn code c z = true
    · exact h z (hmem z hz hzs)
    · simpa using hzs
  | some k =>
    rintro ⟨z, hz, hzs⟩
    have hk : k ≤ th.countP (wokenOn code c) := h ⟨z, hmem z hz hzs, hzs⟩
    rw [List.countP_set ht]
    show k - 1 ≤ _
    split <;> split <;> omega

theorem valid_inc {code : Code M O C R} {th : List (TS M O C R)} {c : C} {v : Option Nat} (h : Valid code th c v) {u : Nat}
    {o : O} (hx : th[u]? = some (.asleep o)) (hc : code.cond o = c) :
    Valid code (th.set u (.woken o false)) c (v.map (· + 1)) := by
  obtain ⟨ht, hxe⟩ := List.getElem?_eq_some_iff.1 hx
  have hsl : sleepsOn code c (.asleep o : TS M O C R) = true := by simp [sleepsOn, hc]
  cases v with
  | none =>
    have hn : ∀ x ∈ th, sleepsOn code c x = false := h
    have := hn _ (hxe ▸ List.getElem_mem ht)
    rw [hsl] at this; cases this
  | some k =>
    rintro -
    have hk : k ≤ th.countP (wokenOn code c) := h ⟨_, hxe ▸ List.getElem_mem ht, hsl⟩
    rw [List.countP_set ht, hxe]
    simp only [wokenOn, hc, beq_self_eq_true, if_true]
    show k + 1 ≤ _
    simp; exact hk

theorem sleepsOn_wake {code : Code M O C R} {c d : C} {x : TS M O C R} (h : sleepsOn code d (wake code c x) = true) :
    sleepsOn code d x = true ∧ d ≠ c := by
  cases x with
  | asleep o =>
    simp only [wake] at h
    split at h
    · simp [sleepsOn] at h
    · next hne =>
      refine ⟨h, ?_⟩
      simp only [sleepsOn, beq_iff_eq] at h
      rintro rfl; exact hne h
  | _ => simp [wake, sleepsOn] at h

theorem valid_broadcast_self {code : Code M O C R} {th : List (TS M O C R)} {c : C} :
    Valid code (th.map (wake code c)) c none := by
  intro x hx
  obtain ⟨y, _, rfl⟩ := List.mem_map.1 hx
  by_cases h : sleepsOn code c (wake code c y) = true
  · exact absurd rfl (sleepsOn_wake h).2
  · simpa using h

theorem valid_broadcast {code : Code M O C R} {th : List (TS M O C R)} {c d : C} {v : Option Nat} (h : Valid code th d v) :
    Valid code (th.map (wake code c)) d v := by
  cases v with
  | none =>
    intro x hx
    obtain ⟨y, hy, rfl⟩ := List.mem_map.1 hx
    by_cases hs : sleepsOn code d (wake code c y) = true
    · exfalso
      have := (sleepsOn_wake hs).1
      have hn := h y hy
      rw [this] at hn; cases hn
    · simpa using hs
  | some k =>
    rintro ⟨x, hx, hs⟩
    obtain ⟨y, hy, rfl⟩ := List.mem_map.1 hx
    have hk : k ≤ th.countP (wokenOn code d) := h ⟨y, hy, (sleepsOn_wake hs).1⟩
    refine Nat.le_trans hk ?_
    rw [List.countP_map]
    apply List.countP_mono_left
    intro z _ hz
    cases z with
    | woken o b => cases b <;> simpa [wake, wokenOn] using hz
    | _ => simp [wokenOn] at hz

/-! ## Invariant -/

/-- What a thread not holding the mutex is doing. -/
def Outside (cl : Claims M O C R S) (code : Code M O C R) : TS M O C R → Phase O R → Prop
  | .idle, ph => ph = .idle
  | .running o p, ph => cl.ok o ∧ ((ph = .pending o ∧ p = code.prog o) ∨ ∃ r, ph = .took r ∧ p = .ret r)
  | .asleep o, ph => cl.ok o ∧ cl.waits o ∧ ph = .pending o
  | .woken o b, ph => cl.ok o ∧ cl.waits o ∧ ph = .pending o ∧ (b = true → code.limited o = true)

structure Inv (cl : Claims M O C R S) (code : Code M O C R) (σ0 : S) (s : State M O C R) (g : List (GEv O R))
    (ph : Nat → Phase O R) (σ : S) (cr : C → Option Nat) : Prop where
  er : erase g = s.hist
  phases : Phases g ph
  legal : LegalRel cl.spec σ0 g σ
  outside : ∀ t x, s.th[t]? = some x → s.lock ≠ some t → Outside cl code x (ph t)
  valid : ∀ c, Valid code s.th c (cr c)
  free : s.lock = none → cl.Rep s.mem σ ∧ cl.J s.mem cr
  held : ∀ t, s.lock = some t → ∃ o p, s.th[t]? = some (.running o p) ∧ ph t = .pending o ∧ cl.ok o ∧ Sec cl code o p s.mem σ cr

theorem erase_append {O R : Type} (g h : List (GEv O R)) : erase (g ++ h) = erase g ++ erase h := by
  induction g with
  | nil => rfl
  | cons e g ih => cases e <;> simp [erase, ih]

theorem get_set_self {α : Type _} {l : List α} {t : Nat} {x y : α} (h : l[t]? = some x) : (l.set t y)[t]? = some y := by
  obtain ⟨ht, _⟩ := List.getElem?_eq_some_iff.1 h
  simp [ht]

theorem get_set_ne {α : Type _} {l : List α} {t u : Nat} {y : α} (h : u ≠ t) : (l.set t y)[u]? = l[u]? := by
  rw [List.getElem?_set_ne (Ne.symm h)]

/-- Changing what one thread does while keeping everybody else's obligations. -/
theorem outside_set {cl : Claims M O C R S} {code : Code M O C R} {th : List (TS M O C R)} {ph ph' : Nat → Phase O R}
    {lk lk' : Option Nat} {t : Nat} {y : TS M O C R} (h : ∀ u x, th[u]? = some x → lk ≠ some u → Outside cl code x (ph u))
    (hlk : ∀ u, u ≠ t → lk' ≠ some u → lk ≠ some u) (hph : ∀ u, u ≠ t → ph' u = ph u) (hy : lk' ≠ some t → Outside cl code y (ph' t)) :
    ∀ u x, (th.set t y)[u]? = some x → lk' ≠ some u → Outside cl code x (ph' u) := by
  intro u x hx hu
  by_cases hut : u = t
  · subst hut
    rw [List.getElem?_set_self'] at hx
    cases hh : th[u]? with
    | none => rw [hh] at hx; simp at hx
    | some z => rw [hh] at hx; simp at hx; subst hx; exact hy hu
  · rw [get_set_ne hut] at hx
    rw [hph u hut]
    exact h u x hx (hlk u hut hu)

theorem inv_step {cl : Claims M O C R S} {code : Code M O C R} (hok : CodeOk cl code) {σ0 : S} {s s' : State M O C R} {g ph σ cr}
    (h : Inv cl code σ0 s g ph σ cr) (a : Action O) (ha : ∀ t o, a = .call t o → cl.ok o) (hs : step code s a = some s') :
    ∃ g ph σ cr, Inv cl code σ0 s' g ph σ cr := by
  cases a with
  | call t o =>
    rw [step] at hs
    split at hs
    · next hth =>
      simp only [Option.some.injEq] at hs
      subst hs
      have hnl : s.lock ≠ some t := by
        intro hl
        obtain ⟨o', p, h2, _⟩ := h.held t hl
        rw [hth] at h2; cases h2
      have hph : ph t = .idle := h.outside t _ hth hnl
      refine ⟨g ++ [.call t o], (fun u => if u = t then .pending o else ph u), σ, cr, ?_, ?_, ?_, ?_, ?_, h.free, ?_⟩
      · rw [erase_append, h.er]; rfl
      · exact Phases.call t o h.phases hph
      · exact LegalRel.call t o h.legal
      · exact outside_set h.outside (fun _ _ hu => hu) (fun u hu => if_neg hu)
          (fun _ => ⟨ha t o rfl, Or.inl ⟨if_pos rfl, rfl⟩⟩)
      · intro c; exact valid_set (h.valid c) hth (by simp [sleepsOn]) (by simp [wokenOn])
      · intro u hu
        have hut : u ≠ t := by rintro rfl; exact hnl hu
        obtain ⟨o', p, h1, h2, h3⟩ := h.held u hu
        exact ⟨o', p, by rw [get_set_ne hut]; exact h1, by simp only [if_neg hut]; exact h2, h3⟩
    · cases hs
  | timeout t =>
    rw [step] at hs
    split at hs
    · next o hth =>
      split at hs
      · next hlim =>
        simp only [Option.some.injEq] at hs
        subst hs
        have hnl : s.lock ≠ some t := by
          intro hl
          obtain ⟨o', p, h2, _⟩ := h.held t hl
          rw [hth] at h2; cases h2
        obtain ⟨ho, hwt, hp⟩ := h.outside t _ hth hnl
        refine ⟨g, ph, σ, cr, h.er, h.phases, h.legal, ?_, ?_, h.free, ?_⟩
        · exact outside_set h.outside (fun _ _ hu => hu) (fun u hu => rfl) (fun _ => ⟨ho, hwt, hp, fun _ => hlim⟩)
        · intro c; exact valid_set (h.valid c) hth (by simp [sleepsOn]) (by simp [wokenOn])
        · intro u hu
          have hut : u ≠ t := by rintro rfl; exact hnl hu
          obtain ⟨o', p, h1, h2⟩ := h.held u hu
          exact ⟨o', p, by rw [get_set_ne hut]; exact h1, h2⟩
      · cases hs
    · cases hs
  | spurious t =>
    rw [step] at hs
    split at hs
    · next o hth =>
      simp only [Option.some.injEq] at hs
      subst hs
      have hnl : s.lock ≠ some t := by
        intro hl
        obtain ⟨o', p, h2, _⟩ := h.held t hl
        rw [hth] at h2; cases h2
      obtain ⟨ho, hwt, hp⟩ := h.outside t _ hth hnl
      refine ⟨g, ph, σ, cr, h.er, h.phases, h.legal, ?_, ?_, h.free, ?_⟩
      · exact outside_set h.outside (fun _ _ hu => hu) (fun u hu => rfl) (fun _ => ⟨ho, hwt, hp, fun e => by cases e⟩)
      · intro c; exact valid_set (h.valid c) hth (by simp [sleepsOn]) (by simp [wokenOn])
      · intro u hu
        have hut : u ≠ t := by rintro rfl; exact hnl hu
        obtain ⟨o', p, h1, h2⟩ := h.held u hu
        exact ⟨o', p, by rw [get_set_ne hut]; exact h1, h2⟩
    · cases hs
  | run t who =>
    rw [step] at hs
    split at hs
    · next o p hth =>
      by_cases hl : s.lock = some t
      · obtain ⟨o1, p1, hth1, hph, hoko, hsec⟩ := h.held t hl
        rw [hth] at hth1
        simp only [Option.some.injEq, TS.running.injEq] at hth1
        obtain ⟨rfl, rfl⟩ := hth1
        have others : ∀ {lk' : Option Nat} {y : TS M O C R} (ph' : Nat → Phase O R), (∀ u, u ≠ t → ph' u = ph u) →
            (lk' ≠ some t → Outside cl code y (ph' t)) →
            ∀ u x, (s.th.set t y)[u]? = some x → lk' ≠ some u → Outside cl code x (ph' u) := fun ph' h1 h2 =>
          outside_set h.outside (fun u hu _ => by rw [hl]; exact fun e => hu (Option.some.inj e).symm) h1 h2
        cases p with
        | lock k => exact absurd hsec (by simp [Sec])
        | ret r => exact absurd hsec (by simp [Sec])
        | unlock k =>
          simp only [instr, hl, if_true, Option.some.injEq] at hs
          subst hs
          cases k with
          | ret r =>
            obtain ⟨σ', hsp, hrep, hj⟩ := hsec
            refine ⟨g ++ [.effect t o r], (fun u => if u = t then .took r else ph u), σ', cr, ?_, ?_, ?_, ?_, ?_, ?_, ?_⟩
            · rw [erase_append, h.er]; simp [erase]
            · exact Phases.effect t o r h.phases hph
            · exact LegalRel.effect t o r h.legal hsp
            · exact others _ (fun u hu => if_neg hu) (fun _ => ⟨hoko, Or.inr ⟨r, if_pos rfl, rfl⟩⟩)
            · intro c; exact valid_set (h.valid c) hth (by simp [sleepsOn]) (by simp [wokenOn])
            · intro _; exact ⟨hrep, hj⟩
            · intro u hu; simp at hu
          | _ => exact absurd hsec (by simp [Sec])
        | acc f k =>
          simp only [instr] at hs
          simp only [Sec] at hsec
          cases hf : f s.mem with
          | none => rw [hf] at hs; cases hs
          | some mb =>
            obtain ⟨m', b⟩ := mb
            rw [hf] at hs hsec
            simp only [Option.some.injEq] at hs
            subst hs
            refine ⟨g, ph, σ, cr, h.er, h.phases, h.legal, ?_, ?_, ?_, ?_⟩
            · exact others ph (fun _ _ => rfl) (fun e => absurd hl e)
            · intro c; exact valid_set (h.valid c) hth (by simp [sleepsOn]) (by simp [wokenOn])
            · intro e; rw [hl] at e; cases e
            · intro u hu
              have hut : u = t := by rw [hl] at hu; exact (Option.some.inj hu).symm
              subst hut
              exact ⟨o, k b, get_set_self hth, hph, hoko, hsec⟩
        | wait =>
          simp only [instr, hl, if_true, Option.some.injEq] at hs
          subst hs
          obtain ⟨hwt, hrep, hj⟩ := hsec
          refine ⟨g, ph, σ, upd cr (code.cond o) (some 0), h.er, h.phases, h.legal, ?_, ?_, ?_, ?_⟩
          · exact others ph (fun _ _ => rfl) (fun _ => ⟨hoko, hwt, hph⟩)
          · intro c
            unfold upd
            split
            · intro _; exact Nat.zero_le _
            · next hc =>
              refine valid_set (h.valid c) hth ?_ (by simp [wokenOn])
              intro e; simp [sleepsOn] at e; exact absurd e.symm hc
          · intro _; exact ⟨hrep, hj⟩
          · intro u hu; simp at hu
        | signal c k =>
          simp only [instr] at hs
          simp only [Sec] at hsec
          cases who with
          | none =>
            simp only [signal] at hs
            by_cases hany : s.th.any (sleepsOn code c) = true
            · rw [if_pos hany] at hs; cases hs
            · rw [if_neg hany] at hs
              simp only [Option.some.injEq] at hs
              subst hs
              refine ⟨g, ph, σ, upd cr c ((cr c).map (· + 1)), h.er, h.phases, h.legal, ?_, ?_, ?_, ?_⟩
              rotate_right 1
              · intro u hu
                have hut : u = t := by rw [hl] at hu; exact (Option.some.inj hu).symm
                subst hut
                exact ⟨o, k, get_set_self hth, hph, hoko, hsec⟩
              · exact others ph (fun _ _ => rfl) (fun e => absurd hl e)
              · intro d
                refine valid_set ?_ hth (by simp [sleepsOn]) (by simp [wokenOn])
                unfold upd
                split
                · next e =>
                  subst e
                  apply valid_of_none
                  intro x hx
                  by_cases hsx : sleepsOn code d x = true
                  · exact absurd (List.any_eq_true.2 ⟨x, hx, hsx⟩) hany
                  · simpa using hsx
                · exact h.valid d
              · intro e; rw [hl] at e; cases e
          | some w =>
            simp only [signal] at hs
            split at hs
            · next th' heq =>
              simp only [Option.some.injEq] at hs
              subst hs
              split at heq
              · next ow hw =>
                split at heq
                · next hcw =>
                  simp only [Option.some.injEq] at heq
                  subst heq
                  have hwt : w ≠ t := by rintro rfl; rw [hth] at hw; cases hw
                  have hwl : s.lock ≠ some w := by rw [hl]; exact fun e => hwt (Option.some.inj e).symm
                  obtain ⟨how, hww, hpw⟩ := h.outside w _ hw hwl
                  have hth' : (s.th.set w (.woken ow false))[t]? = some (.running o (.signal c k)) := by
                    rw [get_set_ne hwt.symm]; exact hth
                  refine ⟨g, ph, σ, upd cr c ((cr c).map (· + 1)), h.er, h.phases, h.legal, ?_, ?_, ?_, ?_⟩
                  rotate_right 1
                  · intro u hu
                    have hut : u = t := by rw [hl] at hu; exact (Option.some.inj hu).symm
                    subst hut
                    exact ⟨o, k, get_set_self hth', hph, hoko, hsec⟩
                  · refine outside_set (lk := s.lock) (ph := ph) ?_ (fun u hu e => e) (fun _ _ => rfl) (fun e => absurd hl e)
                    exact outside_set h.outside (fun u hu e => e) (fun _ _ => rfl) (fun _ => ⟨how, hww, hpw, fun e => by cases e⟩)
                  · intro d
                    refine valid_set ?_ hth' (by simp [sleepsOn]) (by simp [wokenOn])
                    unfold upd
                    split
                    · next e => subst e; exact valid_inc (h.valid d) hw hcw
                    · exact valid_set (h.valid d) hw (by simp [sleepsOn]) (by simp [wokenOn])
                  · intro e; rw [hl] at e; cases e
                · cases heq
              · cases heq
            · cases hs
        | broadcast c k =>
          simp only [instr, Option.some.injEq] at hs
          simp only [Sec] at hsec
          subst hs
          have hth' : (s.th.map (wake code c))[t]? = some (.running o (.broadcast c k)) := by
            rw [List.getElem?_map, hth]; rfl
          refine ⟨g, ph, σ, upd cr c none, h.er, h.phases, h.legal, ?_, ?_, ?_, ?_⟩
          rotate_right 1
          · intro u hu
            have hut : u = t := by rw [hl] at hu; exact (Option.some.inj hu).symm
            subst hut
            exact ⟨o, k, get_set_self hth', hph, hoko, hsec⟩
          · refine outside_set (lk := s.lock) (ph := ph) ?_ (fun u hu e => e) (fun _ _ => rfl) (fun e => absurd hl e)
            intro u x hx hu
            rw [List.getElem?_map] at hx
            cases hux : s.th[u]? with
            | none => rw [hux] at hx; cases hx
            | some y =>
              rw [hux] at hx
              simp only [Option.map_some, Option.some.injEq] at hx
              subst hx
              have hy := h.outside u y hux hu
              cases y with
              | asleep oy =>
                simp only [wake]
                split
                · exact ⟨hy.1, hy.2.1, hy.2.2, fun e => by cases e⟩
                · exact hy
              | _ => exact hy
          · intro d
            refine valid_set ?_ hth' (by simp [sleepsOn]) (by simp [wokenOn])
            unfold upd
            split
            · next e => subst e; exact valid_broadcast_self
            · exact valid_broadcast (h.valid d)
          · intro e; rw [hl] at e; cases e
      · obtain ⟨hoko, ⟨hph, hp⟩ | ⟨r, hph, hp⟩⟩ := h.outside t _ hth hl
        · obtain ⟨k, hk, hsec⟩ := hok.prog o hoko
          rw [hk] at hp
          subst hp
          simp only [instr] at hs
          by_cases hn : s.lock = none
          · rw [if_pos hn] at hs
            simp only [Option.some.injEq] at hs
            subst hs
            obtain ⟨hrep, hj⟩ := h.free hn
            refine ⟨g, ph, σ, cr, h.er, h.phases, h.legal, ?_, ?_, ?_, ?_⟩
            · exact outside_set h.outside (fun u hu _ => by rw [hn]; simp) (fun _ _ => rfl) (fun e => absurd rfl e)
            · intro c; exact valid_set (h.valid c) hth (by simp [sleepsOn]) (by simp [wokenOn])
            · intro e; simp at e
            · intro u hu
              simp only [Option.some.injEq] at hu
              subst hu
              exact ⟨o, k, get_set_self hth, hph, hoko, hsec _ _ _ hrep hj⟩
          · rw [if_neg hn] at hs; cases hs
        · subst hp
          simp only [instr, Option.some.injEq] at hs
          subst hs
          refine ⟨g ++ [.ret t r], (fun u => if u = t then .idle else ph u), σ, cr, ?_, ?_, ?_, ?_, ?_, h.free, ?_⟩
          · rw [erase_append, h.er]; rfl
          · exact Phases.ret t r h.phases hph
          · exact LegalRel.ret t r h.legal
          · exact outside_set h.outside (fun _ _ hu => hu) (fun u hu => if_neg hu) (fun _ => if_pos rfl)
          · intro c; exact valid_set (h.valid c) hth (by simp [sleepsOn]) (by simp [wokenOn])
          · intro u hu
            have hut : u ≠ t := by rintro rfl; exact hl hu
            obtain ⟨o', p, h1, h2, h3⟩ := h.held u hu
            exact ⟨o', p, by rw [get_set_ne hut]; exact h1, by simp only [if_neg hut]; exact h2, h3⟩
    · next o b hth =>
      split at hs
      · next hn =>
        simp only [Option.some.injEq] at hs
        subst hs
        have hnl : s.lock ≠ some t := by rw [hn]; simp
        obtain ⟨hoko, hwt, hph, hlim⟩ := h.outside t _ hth hnl
        obtain ⟨hrep, hj⟩ := h.free hn
        cases b with
        | true =>
          refine ⟨g, ph, σ, cr, h.er, h.phases, h.legal, ?_, ?_, ?_, ?_⟩
          · exact outside_set h.outside (fun u hu _ => by rw [hn]; simp) (fun _ _ => rfl) (fun e => absurd rfl e)
          · intro c; exact valid_set (h.valid c) hth (by simp [sleepsOn]) (by simp [wokenOn])
          · intro e; simp at e
          · intro u hu
            simp only [Option.some.injEq] at hu
            subst hu
            exact ⟨o, _, get_set_self hth, hph, hoko, hok.timed o hoko hwt (hlim rfl) _ _ _ hrep hj⟩
        | false =>
          refine ⟨g, ph, σ, upd cr (code.cond o) ((cr (code.cond o)).map (· - 1)), h.er, h.phases, h.legal, ?_, ?_, ?_, ?_⟩
          rotate_right 1
          · intro u hu
            simp only [Option.some.injEq] at hu
            subst hu
            exact ⟨o, _, get_set_self hth, hph, hoko, hok.woken o hoko hwt _ _ _ hrep hj⟩
          · exact outside_set h.outside (fun u hu _ => by rw [hn]; simp) (fun _ _ => rfl) (fun e => absurd rfl e)
          · intro c
            unfold upd
            split
            · next e => subst e; exact valid_dec (h.valid _) hth (by simp [sleepsOn])
            · next e =>
              refine valid_set (h.valid c) hth (by simp [sleepsOn]) ?_
              intro hw; simp [wokenOn] at hw; exact absurd hw.symm e
          · intro e; simp at e
      · cases hs
    · cases hs

/-- The calls of a schedule all satisfy `ok`. -/
def CallsOk (ok : O → Prop) (as : List (Action O)) : Prop := ∀ t o, Action.call t o ∈ as → ok o

theorem inv_run {cl : Claims M O C R S} {code : Code M O C R} (hok : CodeOk cl code) {σ0 : S} (as : List (Action O)) :
    ∀ {s s' : State M O C R} {g ph σ cr}, Inv cl code σ0 s g ph σ cr → CallsOk cl.ok as → run code s as = some s' →
    ∃ g ph σ cr, Inv cl code σ0 s' g ph σ cr := by
  induction as with
  | nil => intro s s' g ph σ cr h _ hr; simp [run] at hr; subst hr; exact ⟨g, ph, σ, cr, h⟩
  | cons a as ih =>
    intro s s' g ph σ cr h hc hr
    rw [run] at hr
    cases hs : step code s a with
    | none => rw [hs] at hr; simp at hr
    | some s1 =>
      rw [hs] at hr
      obtain ⟨g1, ph1, σ1, cr1, h1⟩ := inv_step hok h a (fun t o e => hc t o (by rw [e]; exact List.mem_cons_self)) hs
      exact ih h1 (fun t o e => hc t o (List.mem_cons_of_mem _ e)) hr

theorem inv_start {cl : Claims M O C R S} {code : Code M O C R} {n : Nat} {m : M} {σ : S} (hr : cl.Rep m σ)
    (hj : cl.J m (fun _ => none)) :
    Inv cl code σ (start n m) [] (fun _ => .idle) σ (fun _ => none) := by
  have hidle : ∀ (t : Nat) (x : TS M O C R), (List.replicate n (TS.idle : TS M O C R))[t]? = some x → x = TS.idle := by
    intro t x hx
    exact List.eq_of_mem_replicate (List.mem_of_getElem? hx)
  refine ⟨rfl, Phases.start, LegalRel.start, ?_, ?_, fun _ => ⟨hr, hj⟩, ?_⟩
  · intro t x hx _
    have := hidle t x hx
    subst this; rfl
  · intro c x hx
    rw [List.eq_of_mem_replicate hx]; rfl
  · intro t ht; simp [start] at ht

/-- The holder of the mutex can always go on. -/
theorem holder_runs {cl : Claims M O C R S} {code : Code M O C R} {σ0 : S} {s : State M O C R} {g ph σ cr}
    (h : Inv cl code σ0 s g ph σ cr) {t : Nat} (hl : s.lock = some t) : ∃ who, (step code s (.run t who)).isSome = true := by
  obtain ⟨o, p, hth, _, _, hsec⟩ := h.held t hl
  simp only [step, hth]
  cases p with
  | lock k => exact absurd hsec (by simp [Sec])
  | ret r => exact absurd hsec (by simp [Sec])
  | unlock k => exact ⟨none, by simp [instr, hl]⟩
  | wait => exact ⟨none, by simp [instr, hl]⟩
  | broadcast c k => exact ⟨none, by simp [instr]⟩
  | acc f k =>
    simp only [Sec] at hsec
    cases hf : f s.mem with
    | none => rw [hf] at hsec; exact hsec.elim
    | some mb => exact ⟨none, by simp [instr, hf]⟩
  | signal c k =>
    by_cases hany : s.th.any (sleepsOn code c) = true
    · obtain ⟨x, hx, hsx⟩ := List.any_eq_true.1 hany
      obtain ⟨u, hu, rfl⟩ := List.getElem_of_mem hx
      refine ⟨some u, ?_⟩
      cases hxe : s.th[u] with
      | asleep ou =>
        rw [hxe] at hsx
        simp only [sleepsOn, beq_iff_eq] at hsx
        have : s.th[u]? = some (.asleep ou) := by rw [List.getElem?_eq_getElem hu, hxe]
        simp [instr, signal, this, hsx]
      | _ => rw [hxe] at hsx; simp [sleepsOn] at hsx
    · exact ⟨none, by simp [instr, signal, hany]⟩

end Mon
