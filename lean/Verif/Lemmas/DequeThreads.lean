import Verif.Model.DequeThreads
import Verif.Lemmas.ThreadedQueue
import Verif.Lemmas.Monitor
/-! # The critical sections of threaded_deque.c -/
namespace TDT
open Mon TD BlockSpec

variable {P : Type}

/-- `n` is within the credit. -/
def within (n : Nat) : Option Nat → Prop
  | none => True
  | some k => n ≤ k

theorem within_mono {n m : Nat} {v : Option Nat} (h : within n v) (hm : m ≤ n) : within m v := by
  cases v with
  | none => trivial
  | some k => exact Nat.le_trans hm h

/-- No `PopN` of zero items. -/
def Takes : DOp P → Prop
  | .popLeftN n _ => 1 ≤ n
  | .popRightN n _ => 1 ≤ n
  | _ => True

def waits : DOp P → Prop
  | .popLeft t | .popRight t | .popLeftN _ t | .popRightN _ t | .waitEmpty t => t ≠ 0
  | _ => False

/-- With `strict`, sleepers for items are accounted for too. -/
def claims (P : Type) (strict : Prop) : Claims (D P) (DOp P) Cond (Res P) (St P) where
  Rep m σ := TD.Inv m σ.items ∧ m.cap = σ.cap
  spec := deque
  J m cr := (strict → within m.size (cr .nonEmpty)) ∧ (m.size = 0 → cr .empty = none)
  ok o := strict → Takes o
  waits := waits

variable {strict : Prop} {o : DOp P} {σ : St P} {cr : Cond → Option Nat}

local notation "SEC" => Sec (claims P strict) (code P)

theorem sec_rd {β : Type} (f : D P → β) (k : β → Pg P) (m : D P) : SEC o (rd f k) m σ cr = SEC o (k (f m)) m σ cr := rfl
theorem sec_wr (g : D P → D P) (k : Pg P) (m : D P) : SEC o (wr g k) m σ cr = SEC o k (g m) σ cr := rfl
theorem sec_rdCell {i : Nat} {x : P} {m : D P} (h : CMem.get m.data i = some x) (k : P → Pg P) :
    SEC o (rdCell i k) m σ cr = SEC o (k x) m σ cr := by
  simp [rdCell, Sec, h]
theorem sec_wrCell {i : Nat} {v : Option P} {m : D P} {d} (h : CMem.write m.data i v = some d) (k : Pg P) :
    SEC o (wrCell i v k) m σ cr = SEC o k { m with data := d } σ cr := by
  simp [wrCell, Sec, h]

theorem sec_finish {r : Res P} {m : D P} {σ' : St P} (hs : deque σ o σ' r) (hr : TD.Inv m σ'.items ∧ m.cap = σ'.cap)
    (hn : strict → within m.size (cr .nonEmpty)) : SEC o (finish r) m σ cr := by
  rw [finish, sec_rd]
  split
  · exact ⟨σ', hs, hr, hn, fun _ => rfl⟩
  · next h => exact ⟨σ', hs, hr, hn, fun e => absurd e h⟩

theorem sec_expand {k : Pg P} {q q' : D P} (e : TD.expand q = some q') (h : SEC o k q' σ cr) : SEC o (expand k) q σ cr := by
  unfold TD.expand at e
  unfold expand
  simp only [sec_rd]
  split at e
  · cases e
  · next h0 =>
    rw [if_neg h0]
    split at e
    · next h1 =>
      rw [if_pos h1]
      split at e
      · next h2 =>
        rw [sec_rd, sec_rd, if_pos h2, sec_rd]
        cases hm : CMem.memmove (CMem.realloc q.data (q.cap * 2)) q.cap 0 q.right with
        | none => rw [hm] at e; cases e
        | some d =>
          rw [hm] at e
          simp only [Option.bind_eq_bind, Option.bind_some, Option.some.injEq] at e
          subst e
          simp only [sec_wr]
          simp only [Sec, sec_rd, sec_wr, hm, Option.map_some]
          exact h
      · next h2 =>
        rw [sec_rd, sec_rd, if_neg h2, sec_rd]
        simp only [Option.some.injEq] at e
        subst e
        simp only [sec_wr]
        simp only [Sec]
        exact h
    · next h1 =>
      rw [if_neg h1]
      simp only [Option.some.injEq] at e
      subst e; exact h

theorem expand_cap {q q' : D P} (e : TD.expand q = some q') : q'.cap = if q.size = q.cap then q.cap * 2 else q.cap := by
  unfold TD.expand at e
  split at e
  · cases e
  · split at e
    · next h1 =>
      rw [if_pos h1]
      split at e
      · cases hm : CMem.memmove (CMem.realloc q.data (q.cap * 2)) q.cap 0 q.right with
        | none => rw [hm] at e; cases e
        | some d =>
          rw [hm] at e
          simp only [Option.bind_eq_bind, Option.bind_some, Option.some.injEq] at e
          subst e; rfl
      · simp only [Option.some.injEq] at e
        subst e; rfl
    · next h1 =>
      rw [if_neg h1]
      simp only [Option.some.injEq] at e
      subst e; rfl

theorem expand_grow {q q' : D P} (I : TD.Inv q σ.items) (hc : q.cap = σ.cap) (e : TD.expand q = some q') : q'.cap = grow σ := by
  rw [expand_cap e, grow, I.size, hc]

theorem sec_pushRight {x : P} {q : D P} (I : TD.Inv q σ.items) (hc : q.cap = σ.cap) (hn : strict → within q.size (cr .nonEmpty)) :
    ∃ k, (pushRight x : Pg P) = .lock k ∧ SEC (.pushRight x) k q σ cr := by
  refine ⟨_, rfl, ?_⟩
  obtain ⟨q1, e, I1, hlt⟩ := expand_spec I
  refine sec_expand e ?_
  obtain ⟨hw, r'⟩ := I1.rep.pushLast hlt x
  rw [← I1.right] at hw r'
  simp only [sec_rd, sec_wr]
  rw [sec_wrCell (m := { q1 with right := q1.right + 1 }) hw]
  simp only [sec_rd, sec_wr]
  have hh := I1.rep.head_lt
  refine ⟨⟨σ.items ++ [x], grow σ⟩, ⟨rfl, by rw [I1.size]⟩, ⟨⟨r', by simp [I1.size], ?_⟩, (expand_grow I hc e : q1.cap = grow σ)⟩, ?_, ?_⟩
  · simp only [List.length_append, List.length_singleton]
    rw [I1.right, Nat.mod_add_mod]; rfl
  · intro hs
    have := hn hs
    show within (q1.size + 1) ((cr .nonEmpty).map (· + 1))
    rw [I1.size, ← I.size]
    cases hcr : cr .nonEmpty with
    | none => trivial
    | some v => rw [hcr] at this; exact Nat.succ_le_succ this
  · intro hz; exact absurd hz (Nat.succ_ne_zero _)

theorem sec_pushLeft {x : P} {q : D P} (I : TD.Inv q σ.items) (hc : q.cap = σ.cap) (hn : strict → within q.size (cr .nonEmpty)) :
    ∃ k, (pushLeft x : Pg P) = .lock k ∧ SEC (.pushLeft x) k q σ cr := by
  refine ⟨_, rfl, ?_⟩
  obtain ⟨q1, e, I1, hlt⟩ := expand_spec I
  refine sec_expand e ?_
  have e2 : TD.pushLeft q x = (CMem.write q1.data (down q1.cap q1.left) (some x)).bind fun data =>
      some ({ q1 with data := data, left := down q1.cap q1.left, size := q1.size + 1 }, q1.size + 1) := by
    simp [TD.pushLeft, e]
  obtain ⟨q2, e3, I2⟩ := TD.pushLeft_spec I x
  obtain ⟨hw, r'⟩ := I1.rep.pushFirst hlt x
  rw [e2, hw] at e3
  simp only [Option.bind_some, Option.some.injEq, Prod.mk.injEq] at e3
  obtain ⟨e3, e4⟩ := e3
  simp only [sec_rd, sec_wr]
  have hw' : CMem.write q1.data (if q1.left = 0 then q1.cap - 1 else q1.left - 1) (some x) =
      some (q1.data.set (down q1.cap q1.left) (some x)) := hw
  rw [sec_wrCell (m := { q1 with left := if q1.left = 0 then q1.cap - 1 else q1.left - 1 }) hw']
  simp only [sec_rd, sec_wr]
  refine ⟨⟨x :: σ.items, grow σ⟩, ⟨rfl, by rw [I1.size]⟩, ⟨?_, (expand_grow I hc e : q1.cap = grow σ)⟩, ?_, ?_⟩
  · subst e3; exact I2
  · intro hs
    have := hn hs
    show within (q1.size + 1) ((cr .nonEmpty).map (· + 1))
    rw [I1.size, ← I.size]
    cases hcr : cr .nonEmpty with
    | none => trivial
    | some v => rw [hcr] at this; exact Nat.succ_le_succ this
  · intro hz; exact absurd hz (Nat.succ_ne_zero _)

theorem sec_popLeft {q q' : D P} {r : Option P} (e : TD.popLeft q = some (q', r))
    (h : SEC o (finish (taken r)) q' σ cr) : SEC o popLeft q σ cr := by
  unfold TD.popLeft at e
  unfold popLeft
  rw [sec_rd]
  split at e
  · next h0 =>
    rw [if_pos h0]
    cases hg : CMem.get q.data q.left with
    | none => rw [hg] at e; cases e
    | some x =>
      cases hw : CMem.write q.data q.left none with
      | none => rw [hg, hw] at e; cases e
      | some d =>
        rw [hg, hw] at e
        simp only [Option.bind_eq_bind, Option.bind_some, Option.some.injEq, Prod.mk.injEq] at e
        obtain ⟨rfl, rfl⟩ := e
        rw [sec_rd, sec_rdCell hg, sec_wrCell hw]
        simp only [sec_rd, sec_wr]
        exact h
  · next h0 =>
    rw [if_neg h0]
    simp only [Option.some.injEq, Prod.mk.injEq] at e
    obtain ⟨rfl, rfl⟩ := e
    exact h

theorem sec_popRight {q q' : D P} {r : Option P} (e : TD.popRight q = some (q', r))
    (h : SEC o (finish (taken r)) q' σ cr) : SEC o popRight q σ cr := by
  unfold TD.popRight at e
  unfold popRight
  rw [sec_rd]
  split at e
  · next h0 =>
    rw [if_pos h0]
    simp only at e
    cases hg : CMem.get q.data (down q.cap q.right) with
    | none => rw [hg] at e; cases e
    | some x =>
      cases hw : CMem.write q.data (down q.cap q.right) none with
      | none => rw [hg, hw] at e; cases e
      | some d =>
        rw [hg, hw] at e
        simp only [Option.bind_eq_bind, Option.bind_some, Option.some.injEq, Prod.mk.injEq] at e
        obtain ⟨rfl, rfl⟩ := e
        rw [sec_rd, sec_rd, sec_rdCell hg, sec_wrCell hw]
        simp only [sec_rd, sec_wr]
        exact h
  · next h0 =>
    rw [if_neg h0]
    simp only [Option.some.injEq, Prod.mk.injEq] at e
    obtain ⟨rfl, rfl⟩ := e
    exact h

theorem sec_popLeftLoop {k : Nat → List P → Pg P} : ∀ (n : Nat) {m : D P} {data : List (Option P)} {left left' : Nat} {data' xs}
    {acc : List P}, m.data = data → TQ.popLoop m.cap n data left = some (data', left', xs) →
    SEC o (k left' (acc ++ xs)) { m with data := data' } σ cr → SEC o (popLeftLoop n left acc k) m σ cr := by
  intro n
  induction n with
  | zero =>
    intro m data left left' data' xs acc hd e h
    simp only [TQ.popLoop, Option.some.injEq, Prod.mk.injEq] at e
    obtain ⟨rfl, rfl, rfl⟩ := e
    subst hd
    simpa [popLeftLoop] using h
  | succ n ih =>
    intro m data left left' data' xs acc hd e h
    rw [TQ.popLoop] at e
    cases hg : CMem.get data left with
    | none => rw [hg] at e; cases e
    | some x =>
      cases hw : CMem.write data left none with
      | none => rw [hg, hw] at e; cases e
      | some d =>
        rw [hg, hw] at e
        simp only [Option.bind_eq_bind, Option.bind_some] at e
        cases hp : TQ.popLoop m.cap n d ((left + 1) % m.cap) with
        | none => rw [hp] at e; cases e
        | some z =>
          obtain ⟨d1, l1, xs1⟩ := z
          rw [hp] at e
          simp only [Option.bind_some, Option.some.injEq, Prod.mk.injEq] at e
          obtain ⟨rfl, rfl, rfl⟩ := e
          subst hd
          rw [popLeftLoop, sec_rdCell hg, sec_wrCell hw, sec_rd]
          refine ih (m := { m with data := d }) rfl hp ?_
          simpa using h

theorem sec_popRightLoop {k : Nat → List P → Pg P} : ∀ (n : Nat) {m : D P} {data : List (Option P)} {right right' : Nat} {data' xs}
    {acc : List P}, m.data = data → TD.popRightLoop m.cap n data right = some (data', right', xs) →
    SEC o (k right' (acc ++ xs)) { m with data := data' } σ cr → SEC o (popRightLoop n right acc k) m σ cr := by
  intro n
  induction n with
  | zero =>
    intro m data left left' data' xs acc hd e h
    simp only [TD.popRightLoop, Option.some.injEq, Prod.mk.injEq] at e
    obtain ⟨rfl, rfl, rfl⟩ := e
    subst hd
    simpa [popRightLoop] using h
  | succ n ih =>
    intro m data right left' data' xs acc hd e h
    rw [TD.popRightLoop] at e
    simp only at e
    cases hg : CMem.get data (down m.cap right) with
    | none => rw [hg] at e; cases e
    | some x =>
      cases hw : CMem.write data (down m.cap right) none with
      | none => rw [hg, hw] at e; cases e
      | some d =>
        rw [hg, hw] at e
        simp only [Option.bind_eq_bind, Option.bind_some] at e
        cases hp : TD.popRightLoop m.cap n d (down m.cap right) with
        | none => rw [hp] at e; cases e
        | some z =>
          obtain ⟨d1, l1, xs1⟩ := z
          rw [hp] at e
          simp only [Option.bind_some, Option.some.injEq, Prod.mk.injEq] at e
          obtain ⟨rfl, rfl, rfl⟩ := e
          subst hd
          rw [popRightLoop, sec_rd, sec_rdCell hg, sec_wrCell hw]
          refine ih (m := { m with data := d }) rfl hp ?_
          simpa using h

theorem sec_popLeftN {q q' : D P} {n : Nat} {xs : List P} (e : TD.popLeftN q n = some (q', xs))
    (h : SEC o (finish (.items xs)) q' σ cr) : SEC o (popLeftN n) q σ cr := by
  unfold TD.popLeftN at e
  unfold popLeftN
  rw [sec_rd]
  simp only at e ⊢
  generalize (if n < q.size then n else q.size) = sz at e ⊢
  split at e
  · next h0 =>
    rw [if_pos h0, sec_rd]
    cases hp : TQ.popLoop q.cap sz q.data q.left with
    | none => rw [hp] at e; cases e
    | some z =>
      obtain ⟨d1, l1, xs1⟩ := z
      rw [hp] at e
      simp only [Option.bind_eq_bind, Option.bind_some, Option.some.injEq, Prod.mk.injEq] at e
      obtain ⟨rfl, rfl⟩ := e
      refine sec_popLeftLoop sz rfl hp ?_
      simp only [sec_rd, sec_wr, List.nil_append]
      exact h
  · next h0 =>
    rw [if_neg h0]
    simp only [Option.some.injEq, Prod.mk.injEq] at e
    obtain ⟨rfl, rfl⟩ := e
    exact h

theorem sec_popRightN {q q' : D P} {n : Nat} {xs : List P} (e : TD.popRightN q n = some (q', xs))
    (h : SEC o (finish (.items xs)) q' σ cr) : SEC o (popRightN n) q σ cr := by
  unfold TD.popRightN at e
  unfold popRightN
  rw [sec_rd]
  simp only at e ⊢
  generalize (if n < q.size then n else q.size) = sz at e ⊢
  split at e
  · next h0 =>
    rw [if_pos h0, sec_rd]
    cases hp : TD.popRightLoop q.cap sz q.data q.right with
    | none => rw [hp] at e; cases e
    | some z =>
      obtain ⟨d1, l1, xs1⟩ := z
      rw [hp] at e
      simp only [Option.bind_eq_bind, Option.bind_some, Option.some.injEq, Prod.mk.injEq] at e
      obtain ⟨rfl, rfl⟩ := e
      refine sec_popRightLoop sz rfl hp ?_
      simp only [sec_rd, sec_wr, List.nil_append]
      exact h
  · next h0 =>
    rw [if_neg h0]
    simp only [Option.some.injEq, Prod.mk.injEq] at e
    obtain ⟨rfl, rfl⟩ := e
    exact h

/-! ## Capacity is kept by the pops -/

theorem popLeft_cap {q q' : D P} {r} (e : TD.popLeft q = some (q', r)) : q'.cap = q.cap := by
  unfold TD.popLeft at e
  split at e
  · cases hg : CMem.get q.data q.left with
    | none => rw [hg] at e; cases e
    | some x =>
      cases hw : CMem.write q.data q.left none with
      | none => rw [hg, hw] at e; cases e
      | some d =>
        rw [hg, hw] at e
        simp only [Option.bind_eq_bind, Option.bind_some, Option.some.injEq, Prod.mk.injEq] at e
        rw [← e.1]
  · simp only [Option.some.injEq, Prod.mk.injEq] at e
    rw [← e.1]

theorem popRight_cap {q q' : D P} {r} (e : TD.popRight q = some (q', r)) : q'.cap = q.cap := by
  unfold TD.popRight at e
  split at e
  · simp only at e
    cases hg : CMem.get q.data (down q.cap q.right) with
    | none => rw [hg] at e; cases e
    | some x =>
      cases hw : CMem.write q.data (down q.cap q.right) none with
      | none => rw [hg, hw] at e; cases e
      | some d =>
        rw [hg, hw] at e
        simp only [Option.bind_eq_bind, Option.bind_some, Option.some.injEq, Prod.mk.injEq] at e
        rw [← e.1]
  · simp only [Option.some.injEq, Prod.mk.injEq] at e
    rw [← e.1]

theorem popLeftN_cap {q q' : D P} {n xs} (e : TD.popLeftN q n = some (q', xs)) : q'.cap = q.cap := by
  unfold TD.popLeftN at e
  simp only at e
  generalize (if n < q.size then n else q.size) = sz at e
  split at e
  · cases hp : TQ.popLoop q.cap sz q.data q.left with
    | none => rw [hp] at e; cases e
    | some z =>
      rw [hp] at e
      simp only [Option.bind_eq_bind, Option.bind_some, Option.some.injEq, Prod.mk.injEq] at e
      rw [← e.1]
  · simp only [Option.some.injEq, Prod.mk.injEq] at e
    rw [← e.1]

theorem popRightN_cap {q q' : D P} {n xs} (e : TD.popRightN q n = some (q', xs)) : q'.cap = q.cap := by
  unfold TD.popRightN at e
  simp only at e
  generalize (if n < q.size then n else q.size) = sz at e
  split at e
  · cases hp : TD.popRightLoop q.cap sz q.data q.right with
    | none => rw [hp] at e; cases e
    | some z =>
      rw [hp] at e
      simp only [Option.bind_eq_bind, Option.bind_some, Option.some.injEq, Prod.mk.injEq] at e
      rw [← e.1]
  · simp only [Option.some.injEq, Prod.mk.injEq] at e
    rw [← e.1]

/-! ## The obligations -/

/-- What a popping body needs: enough credit for what stays, and something to take unless the caller does not wait. -/
def BodyOk (P : Type) (strict : Prop) (o : DOp P) (t : Int) (body : Pg P) : Prop :=
  ∀ (m : D P) (σ : St P) (cr : Cond → Option Nat), TD.Inv m σ.items → m.cap = σ.cap →
    (strict → within (m.size - 1) (cr .nonEmpty)) → (σ.items ≠ [] ∨ t = 0) → Sec (claims P strict) (code P) o body m σ cr

theorem popLeft_ok (t : Int) : BodyOk P strict (.popLeft t) t popLeft := by
  intro m σ cr I hc hn ht
  obtain ⟨q', e, I'⟩ := TD.popLeft_spec I
  refine sec_popLeft e (sec_finish (σ' := ⟨σ.items.tail, σ.cap⟩) ?_ ⟨I', by rw [popLeft_cap e]; exact hc⟩ ?_)
  · by_cases h0 : σ.items = []
    · obtain ⟨l, cap⟩ := σ
      simp only at h0; subst h0
      exact Or.inr (Or.inl ⟨rfl, ht.resolve_left (fun h => h rfl), rfl, rfl⟩)
    · exact Or.inl ⟨h0, rfl, rfl⟩
  · intro hs
    have a := I'.size
    have b := I.size
    simp only [List.length_tail] at a
    exact within_mono (hn hs) (by omega)

theorem popRight_ok (t : Int) : BodyOk P strict (.popRight t) t popRight := by
  intro m σ cr I hc hn ht
  obtain ⟨q', e, I'⟩ := TD.popRight_spec I
  refine sec_popRight e (sec_finish (σ' := ⟨σ.items.dropLast, σ.cap⟩) ?_ ⟨I', by rw [popRight_cap e]; exact hc⟩ ?_)
  · by_cases h0 : σ.items = []
    · obtain ⟨l, cap⟩ := σ
      simp only at h0; subst h0
      exact Or.inr (Or.inl ⟨rfl, ht.resolve_left (fun h => h rfl), rfl, rfl⟩)
    · exact Or.inl ⟨h0, rfl, rfl⟩
  · intro hs
    have a := I'.size
    have b := I.size
    simp only [List.length_dropLast] at a
    exact within_mono (hn hs) (by omega)

theorem popLeftN_ok (n : Nat) (t : Int) (hn1 : strict → 1 ≤ n) : BodyOk P strict (.popLeftN n t) t (popLeftN n) := by
  intro m σ cr I hc hn ht
  obtain ⟨q', e, I'⟩ := TD.popLeftN_spec I n
  refine sec_popLeftN e (sec_finish (σ' := ⟨σ.items.drop n, σ.cap⟩) ?_ ⟨I', by rw [popLeftN_cap e]; exact hc⟩ ?_)
  · by_cases h0 : σ.items = []
    · obtain ⟨l, cap⟩ := σ
      simp only at h0; subst h0
      exact Or.inr (Or.inl ⟨rfl, ht.resolve_left (fun h => h rfl), by simp, by simp⟩)
    · exact Or.inl ⟨h0, rfl, rfl⟩
  · intro hs
    have a := I'.size
    have b := I.size
    have := hn1 hs
    simp only [List.length_drop] at a
    exact within_mono (hn hs) (by omega)

theorem popRightN_ok (n : Nat) (t : Int) (hn1 : strict → 1 ≤ n) : BodyOk P strict (.popRightN n t) t (popRightN n) := by
  intro m σ cr I hc hn ht
  obtain ⟨q', e, I'⟩ := TD.popRightN_spec I n
  refine sec_popRightN e (sec_finish (σ' := ⟨σ.items.take (σ.items.length - n), σ.cap⟩) ?_ ⟨I', by rw [popRightN_cap e]; exact hc⟩ ?_)
  · by_cases h0 : σ.items = []
    · obtain ⟨l, cap⟩ := σ
      simp only at h0; subst h0
      exact Or.inr (Or.inl ⟨rfl, ht.resolve_left (fun h => h rfl), by simp, by simp⟩)
    · exact Or.inl ⟨h0, rfl, rfl⟩
  · intro hs
    have a := I'.size
    have b := I.size
    have := hn1 hs
    simp only [List.length_take] at a
    exact within_mono (hn hs) (by omega)

theorem nil_of_size {m : D P} {l : List P} (I : TD.Inv m l) : m.size = 0 ↔ l = [] := by
  rw [I.size, List.length_eq_zero_iff]

theorem blocking_ok {t : Int} {body : Pg P} (hb : BodyOk P strict o t body) (hw : t ≠ 0 → waits o)
    (hcond : (code P).cond o = .nonEmpty) {m : D P} (I : TD.Inv m σ.items) (hc : m.cap = σ.cap)
    (hn : strict → within m.size (cr .nonEmpty)) (he : m.size = 0 → cr .empty = none) :
    ∃ k, (blocking t body : Pg P) = .lock k ∧ SEC o k m σ cr := by
  refine ⟨_, rfl, ?_⟩
  rw [sec_rd]
  split
  · next h =>
    refine ⟨hw h.2, ⟨I, hc⟩, ?_, ?_⟩
    · intro _; rw [hcond, h.1]; exact Nat.le_refl 0
    · intro hz; rw [hcond]; exact he hz
  · next h =>
    refine hb m σ cr I hc (fun hs => within_mono (hn hs) (Nat.sub_le _ _)) ?_
    by_cases h0 : σ.items = []
    · right
      have := (nil_of_size I).2 h0
      by_cases ht : t = 0
      · exact ht
      · exact absurd ⟨this, ht⟩ h
    · exact Or.inl h0

theorem awake_ok {t : Int} {body : Pg P} (hb : BodyOk P strict o t body) (hw : waits o)
    (hcond : (code P).cond o = .nonEmpty) {m : D P} (I : TD.Inv m σ.items) (hc : m.cap = σ.cap)
    (hn : strict → within m.size (cr .nonEmpty)) (he : m.size = 0 → cr .empty = none) :
    SEC o (awake body false) m σ (upd cr ((code P).cond o) ((cr ((code P).cond o)).map (· - 1))) := by
  simp only [awake, Bool.false_eq_true, if_false]
  rw [sec_rd, hcond]
  split
  · next h =>
    refine ⟨hw, ⟨I, hc⟩, ?_, ?_⟩
    · intro _; rw [hcond, h]; exact Nat.le_refl 0
    · intro hz; rw [hcond]; exact he hz
  · next h =>
    refine hb m σ _ I hc (fun hs => ?_) (Or.inl (fun e => h ((nil_of_size I).2 e)))
    have := hn hs
    show within (m.size - 1) ((cr .nonEmpty).map (· - 1))
    cases hcr : cr .nonEmpty with
    | none => trivial
    | some v => rw [hcr] at this; exact Nat.sub_le_sub_right this 1

theorem timed_ok {t : Int} {body : Pg P} {m : D P} (hs : mayTimeOut t → deque σ o σ .timedOut) (ht : mayTimeOut t)
    (I : TD.Inv m σ.items) (hc : m.cap = σ.cap) (hj : (claims P strict).J m cr) : SEC o (awake body true) m σ cr :=
  ⟨σ, hs ht, ⟨I, hc⟩, hj⟩

/-- Items of a structure, read off as the model's `copy` does. -/
theorem itemsOf_eq {m : D P} {l : List P} (I : TD.Inv m l) : itemsOf m = l := by
  have : ∀ n, n ≤ l.length → (List.range n).filterMap (fun i => CMem.get m.data ((m.left + i) % m.cap)) = l.take n := by
    intro n
    induction n with
    | zero => intro _; rfl
    | succ n ih =>
      intro hn
      rw [List.range_succ, List.filterMap_append, ih (by omega), List.take_add_one, List.getElem?_eq_getElem (by omega)]
      have hg := I.rep.get (i := n) (by omega)
      simp [hg]
  rw [itemsOf, I.size, this _ (Nat.le_refl _), List.take_length]

theorem code_ok (P : Type) (strict : Prop) : CodeOk (claims P strict) (code P) := by
  constructor
  · intro o hok
    cases o with
    | pushLeft x => exact ⟨_, rfl, fun m σ cr hr hj => by
        obtain ⟨k, hk, h⟩ := sec_pushLeft (x := x) (strict := strict) (cr := cr) hr.1 hr.2 hj.1
        cases hk; exact h⟩
    | pushRight x => exact ⟨_, rfl, fun m σ cr hr hj => by
        obtain ⟨k, hk, h⟩ := sec_pushRight (x := x) (strict := strict) (cr := cr) hr.1 hr.2 hj.1
        cases hk; exact h⟩
    | popLeft t => exact ⟨_, rfl, fun m σ cr hr hj => by
        obtain ⟨k, hk, h⟩ := blocking_ok (popLeft_ok (strict := strict) t) (fun h => h) rfl hr.1 hr.2 hj.1 hj.2
        cases hk; exact h⟩
    | popRight t => exact ⟨_, rfl, fun m σ cr hr hj => by
        obtain ⟨k, hk, h⟩ := blocking_ok (popRight_ok (strict := strict) t) (fun h => h) rfl hr.1 hr.2 hj.1 hj.2
        cases hk; exact h⟩
    | popLeftN n t => exact ⟨_, rfl, fun m σ cr hr hj => by
        obtain ⟨k, hk, h⟩ := blocking_ok (popLeftN_ok (strict := strict) n t hok) (fun h => h) rfl hr.1 hr.2 hj.1 hj.2
        cases hk; exact h⟩
    | popRightN n t => exact ⟨_, rfl, fun m σ cr hr hj => by
        obtain ⟨k, hk, h⟩ := blocking_ok (popRightN_ok (strict := strict) n t hok) (fun h => h) rfl hr.1 hr.2 hj.1 hj.2
        cases hk; exact h⟩
    | count => exact ⟨_, rfl, fun m σ cr hr hj => ⟨σ, ⟨rfl, by show _ = _; simp only [hr.1.size]⟩, hr, hj⟩⟩
    | capacity => exact ⟨_, rfl, fun m σ cr hr hj => ⟨σ, ⟨rfl, by show _ = _; simp only [hr.2]⟩, hr, hj⟩⟩
    | isEmpty => exact ⟨_, rfl, fun m σ cr hr hj => ⟨σ, ⟨rfl, by show _ = _; simp only [hr.1.size]⟩, hr, hj⟩⟩
    | waitEmpty t =>
      refine ⟨_, rfl, fun m σ cr hr hj => ?_⟩
      rw [sec_rd]
      split
      · next h => exact ⟨σ, Or.inl ⟨(nil_of_size hr.1).1 h, rfl, rfl⟩, hr, hj⟩
      · next h =>
        split
        · next ht => exact ⟨σ, Or.inr (Or.inl ⟨fun e => h ((nil_of_size hr.1).2 e), ht, rfl, rfl⟩), hr, hj⟩
        · next ht => exact ⟨ht, hr, hj.1, fun e => absurd e h⟩
    | copy =>
      refine ⟨_, rfl, fun m σ cr hr hj => ?_⟩
      simp only [sec_rd]
      have hlen := hr.1.rep.len
      have hcp : CMem.memcpy (List.replicate m.cap none) 0 m.data 0 m.cap = some m.data := by
        rw [CMem.memcpy, if_pos (by simp; omega)]
        simp [← hlen]
      simp only [Sec, hcp, Option.map_some]
      refine ⟨σ, ⟨rfl, ?_⟩, hr, hj⟩
      rw [itemsOf_eq (m := m) hr.1, hr.2]
  · intro o hok hw m σ cr hr hj
    cases o with
    | popLeft t => exact awake_ok (popLeft_ok t) hw rfl hr.1 hr.2 hj.1 hj.2
    | popRight t => exact awake_ok (popRight_ok t) hw rfl hr.1 hr.2 hj.1 hj.2
    | popLeftN n t => exact awake_ok (popLeftN_ok n t hok) hw rfl hr.1 hr.2 hj.1 hj.2
    | popRightN n t => exact awake_ok (popRightN_ok n t hok) hw rfl hr.1 hr.2 hj.1 hj.2
    | waitEmpty t =>
      show Sec (claims P strict) (code P) (.waitEmpty t) (rd (·.size) fun n => if n ≠ 0 then .wait else .unlock (.ret (.bool true))) m σ _
      rw [sec_rd]
      split
      · next h => exact ⟨hw, hr, hj.1, fun e => absurd e h⟩
      · next h =>
        refine ⟨σ, Or.inl ⟨(nil_of_size hr.1).1 (Decidable.not_not.1 h), rfl, rfl⟩, hr, hj.1, fun e => ?_⟩
        show (cr .empty).map _ = none
        rw [hj.2 e]; rfl
    | _ => exact absurd hw (by simp [claims, waits])
  · intro o hok hw hl m σ cr hr hj
    have tm : ∀ t : Int, t ≠ 0 → (t != -1) = true → mayTimeOut t := fun t h1 h2 => ⟨h1, by simpa using h2⟩
    cases o with
    | popLeft t => exact timed_ok (body := popLeft) (fun h => Or.inr (Or.inr ⟨h, rfl, rfl⟩)) (tm t hw hl) hr.1 hr.2 hj
    | popRight t => exact timed_ok (body := popRight) (fun h => Or.inr (Or.inr ⟨h, rfl, rfl⟩)) (tm t hw hl) hr.1 hr.2 hj
    | popLeftN n t => exact timed_ok (body := (popLeftN n)) (fun h => Or.inr (Or.inr ⟨h, rfl, rfl⟩)) (tm t hw hl) hr.1 hr.2 hj
    | popRightN n t => exact timed_ok (body := (popRightN n)) (fun h => Or.inr (Or.inr ⟨h, rfl, rfl⟩)) (tm t hw hl) hr.1 hr.2 hj
    | waitEmpty t => exact ⟨σ, Or.inr (Or.inr ⟨tm t hw hl, rfl, rfl⟩), hr, hj⟩
    | _ => exact absurd hw (by simp [claims, waits])

end TDT
