import Verif.Model.QueueFine
import Verif.Lemmas.DequeThreads
/-! # The critical sections of threaded_queue.c -/
namespace TQF
open Mon TQ BlockSpec
open TDT (Cond within within_mono)

variable {P : Type}

/-- No `PopN` of zero items, no `PushN` of several. -/
def Single : QOp P → Prop
  | .popN n _ => 1 ≤ n
  | .pushN xs => xs.length ≤ 1
  | _ => True

def waits : QOp P → Prop
  | .pop t | .popN _ t | .waitEmpty t => t ≠ 0
  | _ => False

/-- With `strict`, sleepers for items are accounted for too. -/
def claims (P : Type) (strict : Prop) : Claims (Q P) (QOp P) Cond (Res P) (St P) where
  Rep m σ := TQ.Inv m σ.items ∧ m.cap = σ.cap
  spec := queue
  J m cr := (strict → within m.size (cr .nonEmpty)) ∧ (m.size = 0 → cr .empty = none)
  ok o := strict → Single o
  waits := waits

variable {strict : Prop} {o : QOp P} {σ : St P} {cr : Cond → Option Nat}

local notation "SEC" => Sec (claims P strict) (code P)

theorem sec_rd {β : Type} (f : Q P → β) (k : β → Pg P) (m : Q P) : SEC o (rd f k) m σ cr = SEC o (k (f m)) m σ cr := rfl
theorem sec_wr (g : Q P → Q P) (k : Pg P) (m : Q P) : SEC o (wr g k) m σ cr = SEC o k (g m) σ cr := rfl
theorem sec_rdCell {i : Nat} {x : P} {m : Q P} (h : CMem.get m.data i = some x) (k : P → Pg P) :
    SEC o (rdCell i k) m σ cr = SEC o (k x) m σ cr := by
  simp [rdCell, Sec, h]
theorem sec_wrCell {i : Nat} {v : Option P} {m : Q P} {d} (h : CMem.write m.data i v = some d) (k : Pg P) :
    SEC o (wrCell i v k) m σ cr = SEC o k { m with data := d } σ cr := by
  simp [wrCell, Sec, h]
theorem sec_wrap (k : Pg P) (m : Q P) : SEC o (wrap k) m σ cr = SEC o k { m with tail := m.tail % m.cap } σ cr := rfl
theorem sec_reset (k : Pg P) (m : Q P) : SEC o (reset k) m σ cr = SEC o k { m with head := 0, tail := 0 } σ cr := rfl

theorem sec_finish {r : Res P} {m : Q P} {σ' : St P} (hs : queue σ o σ' r) (hr : TQ.Inv m σ'.items ∧ m.cap = σ'.cap)
    (hn : strict → within m.size (cr .nonEmpty)) : SEC o (finish r) m σ cr := by
  rw [finish, sec_rd]
  split
  · exact ⟨σ', hs, hr, hn, fun _ => rfl⟩
  · next h => exact ⟨σ', hs, hr, hn, fun e => absurd e h⟩

theorem sec_expand {k : Pg P} {q q' : Q P} (e : TQ.expand q = some q') (h : SEC o k q' σ cr) : SEC o (expand k) q σ cr := by
  unfold TQ.expand at e
  unfold expand
  simp only [sec_rd]
  split at e
  · cases e
  · next h0 =>
    rw [if_neg h0]
    split at e
    · next h1 =>
      rw [if_pos h1]
      split at e
      · next h2 =>
        rw [sec_rd, sec_rd, if_pos h2, sec_rd]
        cases hm : CMem.memmove (CMem.realloc q.data (q.cap * 2)) q.cap 0 q.tail with
        | none => rw [hm] at e; cases e
        | some d =>
          rw [hm] at e
          simp only [Option.bind_eq_bind, Option.bind_some, Option.some.injEq] at e
          subst e
          simp only [sec_wr]
          simp only [Sec, sec_rd, sec_wr, sec_wrap, hm, Option.map_some]
          exact h
      · next h2 =>
        rw [sec_rd, sec_rd, if_neg h2, sec_rd]
        simp only [Option.some.injEq] at e
        subst e
        simp only [sec_wr]
        simp only [Sec, sec_wrap]
        exact h
    · next h1 =>
      rw [if_neg h1]
      simp only [Option.some.injEq] at e
      subst e; exact h

theorem expand_cap {q q' : Q P} (e : TQ.expand q = some q') : q'.cap = if q.size = q.cap then q.cap * 2 else q.cap := by
  unfold TQ.expand at e
  split at e
  · cases e
  · split at e
    · next h1 =>
      rw [if_pos h1]
      split at e
      · cases hm : CMem.memmove (CMem.realloc q.data (q.cap * 2)) q.cap 0 q.tail with
        | none => rw [hm] at e; cases e
        | some d =>
          rw [hm] at e
          simp only [Option.bind_eq_bind, Option.bind_some, Option.some.injEq] at e
          subst e; rfl
      · simp only [Option.some.injEq] at e
        subst e; rfl
    · next h1 =>
      rw [if_neg h1]
      simp only [Option.some.injEq] at e
      subst e; rfl

/-- Pushing one item, whatever follows. -/
theorem sec_pushOne {x : P} {q : Q P} {τ : St P} (I : TQ.Inv q τ.items) (hc : q.cap = τ.cap) {k : Pg P}
    (h : ∀ q', TQ.Inv q' (τ.items ++ [x]) → q'.cap = grow τ → q'.size = q.size + 1 → SEC o k q' σ cr) :
    SEC o (pushOne x k) q σ cr := by
  obtain ⟨q2, e, I2⟩ := TQ.pushOne_spec I x
  unfold TQ.pushOne at e
  cases he : TQ.expand q with
  | none => rw [he] at e; cases e
  | some q1 =>
    rw [he] at e
    simp only [Option.bind_eq_bind, Option.bind_some] at e
    cases hw : CMem.write q1.data q1.tail (some x) with
    | none => rw [hw] at e; cases e
    | some d =>
      rw [hw] at e
      simp only [Option.bind_some, Option.some.injEq] at e
      refine sec_expand he ?_
      rw [sec_rd, sec_wr, sec_wrCell (m := { q1 with tail := q1.tail + 1 }) hw, sec_rd, sec_wr]
      subst e
      refine h _ I2 ?_ ?_
      · show q1.cap = _
        rw [expand_cap he, grow, I.size, hc]
      · rw [I2.size, I.size]; simp

theorem sec_pushAll {k : Pg P} : ∀ (xs : List P) {q : Q P} {τ : St P}, TQ.Inv q τ.items → q.cap = τ.cap →
    (∀ q', TQ.Inv q' (addAll τ xs).items → q'.cap = (addAll τ xs).cap → q'.size = q.size + xs.length → SEC o k q' σ cr) →
    SEC o (pushAll xs k) q σ cr := by
  intro xs
  induction xs with
  | nil => intro q τ I hc h; exact h q I hc rfl
  | cons x xs ih =>
    intro q τ I hc h
    rw [pushAll]
    refine sec_pushOne I hc (fun q' I' hc' hs' => ?_)
    refine ih (τ := ⟨τ.items ++ [x], grow τ⟩) I' hc' (fun q2 I2 hc2 hs2 => h q2 I2 hc2 ?_)
    rw [hs2, hs']; simp only [List.length_cons]; omega

theorem sec_pushed {σ' : St P} {q : Q P} (hs : queue σ o σ' (.size q.size)) (I : TQ.Inv q σ'.items) (hc : q.cap = σ'.cap)
    (hn : strict → within q.size ((cr .nonEmpty).map (· + 1))) (he : q.size = 0 → cr .empty = none) : SEC o pushed q σ cr :=
  ⟨σ', hs, ⟨I, hc⟩, hn, he⟩

theorem within_succ {n : Nat} {v : Option Nat} (h : within n v) : within (n + 1) (v.map (· + 1)) := by
  cases v with
  | none => trivial
  | some k => exact Nat.succ_le_succ h

theorem sec_pop {q q' : Q P} {r : Option P} (e : TQ.pop q = some (q', r))
    (h : SEC o (finish (taken r)) q' σ cr) : SEC o pop q σ cr := by
  unfold TQ.pop at e
  unfold pop
  rw [sec_rd]
  split at e
  · next h0 =>
    rw [if_pos h0]
    cases hg : CMem.get q.data q.head with
    | none => rw [hg] at e; cases e
    | some x =>
      cases hw : CMem.write q.data q.head none with
      | none => rw [hg, hw] at e; cases e
      | some d =>
        rw [hg, hw] at e
        simp only [Option.bind_eq_bind, Option.bind_some, Option.some.injEq, Prod.mk.injEq] at e
        obtain ⟨rfl, rfl⟩ := e
        rw [sec_rd, sec_rdCell hg, sec_wrCell hw]
        simp only [sec_rd, sec_wr]
        exact h
  · next h0 =>
    rw [if_neg h0]
    simp only [Option.some.injEq, Prod.mk.injEq] at e
    obtain ⟨rfl, rfl⟩ := e
    exact h

theorem sec_popLoop {k : Nat → List P → Pg P} : ∀ (n : Nat) {m : Q P} {data : List (Option P)} {head head' : Nat} {data' xs}
    {acc : List P}, m.data = data → TQ.popLoop m.cap n data head = some (data', head', xs) →
    SEC o (k head' (acc ++ xs)) { m with data := data' } σ cr → SEC o (popLoop n head acc k) m σ cr := by
  intro n
  induction n with
  | zero =>
    intro m data head head' data' xs acc hd e h
    simp only [TQ.popLoop, Option.some.injEq, Prod.mk.injEq] at e
    obtain ⟨rfl, rfl, rfl⟩ := e
    subst hd
    simpa [popLoop] using h
  | succ n ih =>
    intro m data head head' data' xs acc hd e h
    rw [TQ.popLoop] at e
    cases hg : CMem.get data head with
    | none => rw [hg] at e; cases e
    | some x =>
      cases hw : CMem.write data head none with
      | none => rw [hg, hw] at e; cases e
      | some d =>
        rw [hg, hw] at e
        simp only [Option.bind_eq_bind, Option.bind_some] at e
        cases hp : TQ.popLoop m.cap n d ((head + 1) % m.cap) with
        | none => rw [hp] at e; cases e
        | some z =>
          obtain ⟨d1, l1, xs1⟩ := z
          rw [hp] at e
          simp only [Option.bind_some, Option.some.injEq, Prod.mk.injEq] at e
          obtain ⟨rfl, rfl, rfl⟩ := e
          subst hd
          rw [popLoop, sec_rdCell hg, sec_wrCell hw, sec_rd]
          refine ih (m := { m with data := d }) rfl hp ?_
          simpa using h

theorem sec_popN {q q' : Q P} {n : Nat} {xs : List P} (e : TQ.popN q n = some (q', xs))
    (h : SEC o (finish (.items xs)) q' σ cr) : SEC o (popN n) q σ cr := by
  unfold TQ.popN at e
  unfold popN
  rw [sec_rd]
  simp only at e ⊢
  generalize (if n < q.size then n else q.size) = sz at e ⊢
  split at e
  · next h0 =>
    rw [if_pos h0, sec_rd]
    cases hp : TQ.popLoop q.cap sz q.data q.head with
    | none => rw [hp] at e; cases e
    | some z =>
      obtain ⟨d1, l1, xs1⟩ := z
      rw [hp] at e
      simp only [Option.bind_eq_bind, Option.bind_some, Option.some.injEq, Prod.mk.injEq] at e
      obtain ⟨rfl, rfl⟩ := e
      refine sec_popLoop sz rfl hp ?_
      simp only [sec_rd, sec_wr, List.nil_append]
      exact h
  · next h0 =>
    rw [if_neg h0]
    simp only [Option.some.injEq, Prod.mk.injEq] at e
    obtain ⟨rfl, rfl⟩ := e
    exact h

theorem pop_cap {q q' : Q P} {r} (e : TQ.pop q = some (q', r)) : q'.cap = q.cap := by
  unfold TQ.pop at e
  split at e
  · cases hg : CMem.get q.data q.head with
    | none => rw [hg] at e; cases e
    | some x =>
      cases hw : CMem.write q.data q.head none with
      | none => rw [hg, hw] at e; cases e
      | some d =>
        rw [hg, hw] at e
        simp only [Option.bind_eq_bind, Option.bind_some, Option.some.injEq, Prod.mk.injEq] at e
        rw [← e.1]
  · simp only [Option.some.injEq, Prod.mk.injEq] at e
    rw [← e.1]

theorem popN_cap {q q' : Q P} {n xs} (e : TQ.popN q n = some (q', xs)) : q'.cap = q.cap := by
  unfold TQ.popN at e
  simp only at e
  generalize (if n < q.size then n else q.size) = sz at e
  split at e
  · cases hp : TQ.popLoop q.cap sz q.data q.head with
    | none => rw [hp] at e; cases e
    | some z =>
      rw [hp] at e
      simp only [Option.bind_eq_bind, Option.bind_some, Option.some.injEq, Prod.mk.injEq] at e
      rw [← e.1]
  · simp only [Option.some.injEq, Prod.mk.injEq] at e
    rw [← e.1]

theorem sec_decSize {k : Pg P} {m : Q P} (h : m.size ≠ 0) : SEC o (decSize k) m σ cr = SEC o k { m with size := m.size - 1 } σ cr := by
  rw [decSize, sec_rd, if_neg h, sec_wr]

theorem sec_destroyLoop {stop : Nat} {k : List P → Pg P} : ∀ (fuel : Nat) {m : Q P} {data : List (Option P)} {i size size' : Nat}
    {xs acc : List P}, m.data = data → m.size = size → TQ.destroyLoop data m.cap stop fuel i size = some (xs, size') →
    SEC o (k (acc ++ xs)) { m with size := size' } σ cr → SEC o (destroyLoop stop fuel i acc k) m σ cr := by
  intro fuel
  induction fuel with
  | zero => intro m data i size size' xs acc _ _ e; simp [TQ.destroyLoop] at e
  | succ n ih =>
    intro m data i size size' xs acc hd hsz e h
    rw [TQ.destroyLoop] at e
    rw [destroyLoop]
    split at e
    · next h0 =>
      rw [if_pos h0]
      simp only [Option.some.injEq, Prod.mk.injEq] at e
      obtain ⟨rfl, rfl⟩ := e
      subst hsz
      simpa using h
    · next h0 =>
      rw [if_neg h0]
      subst hd hsz
      cases hg : CMem.get m.data (i % m.cap) with
      | none => rw [hg] at e; cases e
      | some x =>
        rw [hg] at e
        simp only [Option.bind_eq_bind, Option.bind_some] at e
        split at e
        · cases e
        · next hz =>
          rw [sec_rd, sec_rdCell hg, sec_decSize hz]
          cases hp : TQ.destroyLoop m.data m.cap stop n (i % m.cap + 1) (m.size - 1) with
          | none => rw [hp] at e; cases e
          | some z =>
            obtain ⟨xs1, s1⟩ := z
            rw [hp] at e
            simp only [Option.bind_some, Option.some.injEq, Prod.mk.injEq] at e
            obtain ⟨rfl, rfl⟩ := e
            refine ih (m := { m with size := m.size - 1 }) rfl rfl hp ?_
            simpa using h

theorem sec_destroyRange {k : List P → Pg P} {m : Q P} {xs : List P} {size' : Nat}
    (e : TQ.destroyRange m m.head m.tail = some (xs, size')) (h : SEC o (k xs) { m with size := size' } σ cr) :
    SEC o (destroyRange k) m σ cr := by
  unfold TQ.destroyRange at e
  unfold destroyRange
  simp only [sec_rd]
  split at e
  · next h0 =>
    rw [if_pos h0]
    simp only [Option.some.injEq, Prod.mk.injEq] at e
    obtain ⟨rfl, rfl⟩ := e
    exact h
  · next h0 =>
    rw [if_neg h0, sec_rd]
    split at e
    · next h1 =>
      rw [if_pos h1]
      cases hg : CMem.get m.data m.head with
      | none => rw [hg] at e; cases e
      | some x =>
        rw [hg] at e
        simp only [Option.bind_eq_bind, Option.bind_some] at e
        rw [sec_rdCell hg, sec_decSize (by omega)]
        cases hp : TQ.destroyLoop m.data m.cap m.tail (m.cap + 1) (m.head + 1) (m.size - 1) with
        | none => rw [hp] at e; cases e
        | some z =>
          obtain ⟨xs1, s1⟩ := z
          rw [hp] at e
          simp only [Option.bind_some, Option.some.injEq, Prod.mk.injEq] at e
          obtain ⟨rfl, rfl⟩ := e
          refine sec_destroyLoop (m.cap + 1) (m := { m with size := m.size - 1 }) rfl rfl hp ?_
          simpa using h
    · next h1 =>
      rw [if_neg h1]
      simp only [Option.some.injEq, Prod.mk.injEq] at e
      obtain ⟨rfl, rfl⟩ := e
      exact h

/-! ## The obligations -/

/-- What a popping body needs: enough credit for what stays, and something to take unless the caller does not wait. -/
def BodyOk (P : Type) (strict : Prop) (o : QOp P) (t : Int) (body : Pg P) : Prop :=
  ∀ (m : Q P) (σ : St P) (cr : Cond → Option Nat), TQ.Inv m σ.items → m.cap = σ.cap →
    (strict → within (m.size - 1) (cr .nonEmpty)) → (σ.items ≠ [] ∨ t = 0) → Sec (claims P strict) (code P) o body m σ cr

theorem pop_ok (t : Int) : BodyOk P strict (.pop t) t pop := by
  intro m σ cr I hc hn ht
  obtain ⟨q', e, I'⟩ := TQ.pop_spec I
  refine sec_pop e (sec_finish (σ' := ⟨σ.items.tail, σ.cap⟩) ?_ ⟨I', by rw [pop_cap e]; exact hc⟩ ?_)
  · by_cases h0 : σ.items = []
    · obtain ⟨l, cap⟩ := σ
      simp only at h0; subst h0
      exact Or.inr (Or.inl ⟨rfl, ht.resolve_left (fun h => h rfl), rfl, rfl⟩)
    · exact Or.inl ⟨h0, rfl, rfl⟩
  · intro hs
    have a := I'.size
    have b := I.size
    simp only [List.length_tail] at a
    exact within_mono (hn hs) (by omega)

theorem popN_ok (n : Nat) (t : Int) (hn1 : strict → 1 ≤ n) : BodyOk P strict (.popN n t) t (popN n) := by
  intro m σ cr I hc hn ht
  obtain ⟨q', e, I'⟩ := TQ.popN_spec I n
  refine sec_popN e (sec_finish (σ' := ⟨σ.items.drop n, σ.cap⟩) ?_ ⟨I', by rw [popN_cap e]; exact hc⟩ ?_)
  · by_cases h0 : σ.items = []
    · obtain ⟨l, cap⟩ := σ
      simp only at h0; subst h0
      exact Or.inr (Or.inl ⟨rfl, ht.resolve_left (fun h => h rfl), by simp, by simp⟩)
    · exact Or.inl ⟨h0, rfl, rfl⟩
  · intro hs
    have a := I'.size
    have b := I.size
    have := hn1 hs
    simp only [List.length_drop] at a
    exact within_mono (hn hs) (by omega)

theorem nil_of_size {m : Q P} {l : List P} (I : TQ.Inv m l) : m.size = 0 ↔ l = [] := by
  rw [I.size, List.length_eq_zero_iff]

theorem blocking_ok {t : Int} {body : Pg P} (hb : BodyOk P strict o t body) (hw : t ≠ 0 → waits o)
    (hcond : (code P).cond o = .nonEmpty) {m : Q P} (I : TQ.Inv m σ.items) (hc : m.cap = σ.cap)
    (hn : strict → within m.size (cr .nonEmpty)) (he : m.size = 0 → cr .empty = none) :
    ∃ k, (blocking t body : Pg P) = .lock k ∧ SEC o k m σ cr := by
  refine ⟨_, rfl, ?_⟩
  rw [sec_rd]
  split
  · next h =>
    refine ⟨hw h.2, ⟨I, hc⟩, ?_, ?_⟩
    · intro _; rw [hcond, h.1]; exact Nat.le_refl 0
    · intro hz; rw [hcond]; exact he hz
  · next h =>
    refine hb m σ cr I hc (fun hs => within_mono (hn hs) (Nat.sub_le _ _)) ?_
    by_cases h0 : σ.items = []
    · right
      have := (nil_of_size I).2 h0
      by_cases ht : t = 0
      · exact ht
      · exact absurd ⟨this, ht⟩ h
    · exact Or.inl h0

theorem awake_ok {t : Int} {body : Pg P} (hb : BodyOk P strict o t body) (hw : waits o)
    (hcond : (code P).cond o = .nonEmpty) {m : Q P} (I : TQ.Inv m σ.items) (hc : m.cap = σ.cap)
    (hn : strict → within m.size (cr .nonEmpty)) (he : m.size = 0 → cr .empty = none) :
    SEC o (awake body false) m σ (upd cr ((code P).cond o) ((cr ((code P).cond o)).map (· - 1))) := by
  simp only [awake, Bool.false_eq_true, if_false]
  rw [sec_rd, hcond]
  split
  · next h =>
    refine ⟨hw, ⟨I, hc⟩, ?_, ?_⟩
    · intro _; rw [hcond, h]; exact Nat.le_refl 0
    · intro hz; rw [hcond]; exact he hz
  · next h =>
    refine hb m σ _ I hc (fun hs => ?_) (Or.inl (fun e => h ((nil_of_size I).2 e)))
    have := hn hs
    show within (m.size - 1) ((cr .nonEmpty).map (· - 1))
    cases hcr : cr .nonEmpty with
    | none => trivial
    | some v => rw [hcr] at this; exact Nat.sub_le_sub_right this 1

theorem timed_ok {t : Int} {body : Pg P} {m : Q P} (hs : mayTimeOut t → queue σ o σ .timedOut) (ht : mayTimeOut t)
    (I : TQ.Inv m σ.items) (hc : m.cap = σ.cap) (hj : (claims P strict).J m cr) : SEC o (awake body true) m σ cr :=
  ⟨σ, hs ht, ⟨I, hc⟩, hj⟩

theorem itemsOf_eq {m : Q P} {l : List P} (I : TQ.Inv m l) : itemsOf m = l := by
  have : ∀ n, n ≤ l.length → (List.range n).filterMap (fun i => CMem.get m.data ((m.head + i) % m.cap)) = l.take n := by
    intro n
    induction n with
    | zero => intro _; rfl
    | succ n ih =>
      intro hn
      rw [List.range_succ, List.filterMap_append, ih (by omega), List.take_add_one, List.getElem?_eq_getElem (by omega)]
      have hg := I.rep.get (i := n) (by omega)
      simp [hg]
  rw [itemsOf, I.size, this _ (Nat.le_refl _), List.take_length]

theorem addAll_items : ∀ (xs : List P) (s : St P), (addAll s xs).items = s.items ++ xs := by
  intro xs
  induction xs with
  | nil => intro s; simp [addAll]
  | cons x xs ih => intro s; rw [addAll, ih]; simp

theorem code_ok (P : Type) (strict : Prop) : CodeOk (claims P strict) (code P) := by
  constructor
  · intro o hok
    cases o with
    | push x =>
      refine ⟨_, rfl, fun m σ cr hr hj => sec_pushOne hr.1 hr.2 (fun q' I' hc' hs' => ?_)⟩
      refine sec_pushed (σ' := ⟨σ.items ++ [x], grow σ⟩) ⟨rfl, by rw [hs', hr.1.size]⟩ I' hc' (fun hs => ?_) (fun hz => by omega)
      rw [hs']; exact within_succ (hj.1 hs)
    | pushN xs =>
      refine ⟨_, rfl, fun m σ cr hr hj => sec_pushAll xs hr.1 hr.2 (fun q' I' hc' hs' => ?_)⟩
      refine sec_pushed (σ' := addAll σ xs) ⟨rfl, by rw [hs', hr.1.size]⟩ I' hc' (fun hs => ?_) (fun hz => hj.2 (by omega))
      have hx : xs.length ≤ 1 := hok hs
      exact within_mono (within_succ (hj.1 hs)) (by omega)
    | pop t => exact ⟨_, rfl, fun m σ cr hr hj => by
        obtain ⟨k, hk, h⟩ := blocking_ok (pop_ok (strict := strict) t) (fun h => h) rfl hr.1 hr.2 hj.1 hj.2
        cases hk; exact h⟩
    | popN n t => exact ⟨_, rfl, fun m σ cr hr hj => by
        obtain ⟨k, hk, h⟩ := blocking_ok (popN_ok (strict := strict) n t hok) (fun h => h) rfl hr.1 hr.2 hj.1 hj.2
        cases hk; exact h⟩
    | clear =>
      refine ⟨_, rfl, fun m σ cr hr hj => sec_destroyRange (TQ.destroyRange_spec hr.1) ?_⟩
      rw [sec_rd, if_neg (by simp), sec_reset]
      have I0 : TQ.Inv { m with size := 0, head := 0, tail := 0 } (⟨[], σ.cap⟩ : St P).items := TQ.inv_reset hr.1
      refine ⟨⟨[], σ.cap⟩, ⟨rfl, rfl⟩, ⟨I0, hr.2⟩, fun hs => ?_, fun _ => rfl⟩
      exact within_mono (hj.1 hs) (Nat.zero_le _)
    | clearAndPush x =>
      refine ⟨_, rfl, fun m σ cr hr hj => sec_destroyRange (TQ.destroyRange_spec hr.1) ?_⟩
      rw [sec_reset]
      have I0 : TQ.Inv { m with size := 0, head := 0, tail := 0 } (⟨[], σ.cap⟩ : St P).items := TQ.inv_reset hr.1
      refine sec_pushOne (τ := ⟨[], σ.cap⟩) I0 hr.2 (fun q' I' hc' hs' => ?_)
      have h1 : q'.size = 1 := hs'
      rw [sec_rd, sec_rd, if_neg (by simp [h1]), h1]
      refine ⟨⟨[x], σ.cap⟩, ⟨rfl, rfl⟩, ⟨I', ?_⟩, fun hs => ?_, fun hz => by omega⟩
      · rw [hc', grow]
        have := hr.1.rep.head_lt
        have := hr.2
        rw [if_neg (by simp; omega)]
      · rw [h1]
        exact within_succ (within_mono (hj.1 hs) (Nat.zero_le _))
    | count => exact ⟨_, rfl, fun m σ cr hr hj => ⟨σ, ⟨rfl, by show _ = _; simp only [hr.1.size]⟩, hr, hj⟩⟩
    | capacity => exact ⟨_, rfl, fun m σ cr hr hj => ⟨σ, ⟨rfl, by show _ = _; simp only [hr.2]⟩, hr, hj⟩⟩
    | isEmpty => exact ⟨_, rfl, fun m σ cr hr hj => ⟨σ, ⟨rfl, by show _ = _; simp only [hr.1.size]⟩, hr, hj⟩⟩
    | waitEmpty t =>
      refine ⟨_, rfl, fun m σ cr hr hj => ?_⟩
      rw [sec_rd]
      split
      · next h =>
        split
        · next ht => exact ⟨ht, hr, hj.1, fun e => absurd e h⟩
        · next ht =>
          exact ⟨σ, Or.inr (Or.inl ⟨fun e => h ((nil_of_size hr.1).2 e), Decidable.not_not.1 ht, rfl, rfl⟩), hr, hj⟩
      · next h => exact ⟨σ, Or.inl ⟨(nil_of_size hr.1).1 (Decidable.not_not.1 h), rfl, rfl⟩, hr, hj⟩
    | copy =>
      refine ⟨_, rfl, fun m σ cr hr hj => ?_⟩
      simp only [sec_rd]
      have hlen := hr.1.rep.len
      have hcp : CMem.memcpy (List.replicate m.cap none) 0 m.data 0 m.cap = some m.data := by
        rw [CMem.memcpy, if_pos (by simp; omega)]
        simp [← hlen]
      simp only [Sec, hcp, Option.map_some]
      refine ⟨σ, ⟨rfl, ?_⟩, hr, hj⟩
      rw [itemsOf_eq (m := m) hr.1, hr.2]
  · intro o hok hw m σ cr hr hj
    cases o with
    | pop t => exact awake_ok (pop_ok t) hw rfl hr.1 hr.2 hj.1 hj.2
    | popN n t => exact awake_ok (popN_ok n t hok) hw rfl hr.1 hr.2 hj.1 hj.2
    | waitEmpty t =>
      show Sec (claims P strict) (code P) (.waitEmpty t) (rd (·.size) fun n => if n ≠ 0 then .wait else .unlock (.ret (.bool true))) m σ _
      rw [sec_rd]
      split
      · next h => exact ⟨hw, hr, hj.1, fun e => absurd e h⟩
      · next h =>
        refine ⟨σ, Or.inl ⟨(nil_of_size hr.1).1 (Decidable.not_not.1 h), rfl, rfl⟩, hr, hj.1, fun e => ?_⟩
        show (cr .empty).map _ = none
        rw [hj.2 e]; rfl
    | _ => exact absurd hw (by simp [claims, waits])
  · intro o hok hw hl m σ cr hr hj
    have tm : ∀ t : Int, t ≠ 0 → (t != -1) = true → mayTimeOut t := fun t h1 h2 => ⟨h1, by simpa using h2⟩
    cases o with
    | pop t => exact timed_ok (body := pop) (fun h => Or.inr (Or.inr ⟨h, rfl, rfl⟩)) (tm t hw hl) hr.1 hr.2 hj
    | popN n t => exact timed_ok (body := popN n) (fun h => Or.inr (Or.inr ⟨h, rfl, rfl⟩)) (tm t hw hl) hr.1 hr.2 hj
    | waitEmpty t => exact ⟨σ, Or.inr (Or.inr ⟨tm t hw hl, rfl, rfl⟩), hr, hj⟩
    | _ => exact absurd hw (by simp [claims, waits])

end TQF
