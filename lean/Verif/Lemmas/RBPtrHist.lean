import Verif.Lemmas.RBPtrDel
import Verif.Lemmas.RBTree
import Verif.Spec.RBPtr
import Mathlib.Tactic.Tauto
/-! # Lemmas: whole histories on the heap -/
namespace RBPtr
open RB (T Frame up plug)
open RBSpec RBPtrSpec

/-- The heap after the blocks `l` are freed. -/
def killed {P : Type} (h : Heap P) (l : List Nat) : Heap P := { h with alive := fun x => if x ∈ l then false else h.alive x }

theorem killed_agree {P : Type} (h : Heap P) {l : List Nat} {x : Nat} (hx : x ∉ l) : Agree h (killed h l) x :=
  ⟨by simp [killed, hx], rfl, rfl, rfl, rfl, rfl⟩

theorem destroyRec_sim {P : Type} {nil : Nat} (t : T (Nat × P)) : ∀ (h : Heap P) (q n : Nat), Rep nil h q t → (addrs t).Nodup →
    nil ∉ addrs t → (addrs t).length < n →
    destroyRec nil n h (addr nil t) = some (killed h (addrs t), (er t).post.map some) := by
  induction t with
  | nil =>
    intro h q n _ _ _ hn
    obtain ⟨m, rfl⟩ : ∃ m, n = m + 1 := ⟨n - 1, by omega⟩
    simp [destroyRec, addr, killed, addrs, RB.T.map, RB.T.post]
  | node c l p r ihl ihr =>
    intro h q n ⟨nd, rl, rr⟩ hd hnil hn
    obtain ⟨m, rfl⟩ : ∃ m, n = m + 1 := ⟨n - 1, by omega⟩
    simp only [addrs, List.length_cons, List.length_append] at hn
    simp only [addrs, List.nodup_cons, List.mem_append, not_or, List.nodup_append, List.mem_cons] at hd hnil
    obtain ⟨⟨pl, pr⟩, dl, dr, dj⟩ := hd
    have e1 := ihl h p.1 m rl dl hnil.2.1 (by omega)
    have rr' : Rep nil (killed h (addrs l)) p.1 r := Rep.agree r (fun a ha => killed_agree h (fun hl => dj a hl a ha rfl)) rr
    have e2 := ihr _ p.1 m rr' dr hnil.2.2 (by omega)
    have nd1 := nd.agree (killed_agree h pl)
    have nd2 := nd1.agree (killed_agree _ pr)
    have g1 : getL h p.1 = some (addr nil l) := by simp [getL, nd.alive, nd.left]
    have g2 : getR (killed h (addrs l)) p.1 = some (addr nil r) := by simp [getR, nd1.alive, nd1.right]
    have g3 : nodeDestroy (killed (killed h (addrs l)) (addrs r)) p.1 =
        some (killed h (addrs (.node c l p r)), some p.2) := by
      simp only [nodeDestroy, getPay, nd2.alive, if_true, nd2.pay, free, Option.bind_eq_bind, Option.bind_some, Option.some.injEq, Prod.mk.injEq, and_true]
      simp only [killed, Heap.mk.injEq, and_true]
      funext x
      simp only [upd, addrs, List.mem_cons, List.mem_append]
      by_cases h1 : x = p.1 <;> by_cases h2 : x ∈ addrs l <;> by_cases h3 : x ∈ addrs r <;> simp [h1, h2, h3]
    have hne : p.1 ≠ nil := fun e => hnil.1 e.symm
    rw [show addr nil (.node c l p r) = p.1 from rfl, destroyRec]
    simp [hne, g1, e1, g2, e2, g3, RB.T.map, RB.T.post]

section hist
variable {K V : Type}

theorem Holds.nd {s : St K V} {t : T (Nat × (K × V))} (H : Holds s t) : (s.root :: s.nil :: addrs t).Nodup := H.z.nodup

theorem reset_holds {s : St K V} (h1 : s.h.alive s.root = true) (h2 : s.h.alive s.nil = true) (h3 : s.root ≠ s.nil) :
    ∃ s', reset s = some s' ∧ Holds s' .nil ∧ s'.size = 0 ∧ s'.root = s.root ∧ s'.nil = s.nil ∧ s'.h.alive = s.h.alive ∧
      ∀ x, x ≠ s.root → x ≠ s.nil → Agree s.h s'.h x := by
  obtain ⟨s', e⟩ : ∃ s', reset s = some s' := by
    simp [reset, resetNode, setPay, setRed, setR, setL, setP, h1, h2]
  have e' := e
  simp [reset, resetNode, setPay, setRed, setR, setL, setP, h1, h2] at e'
  subst e'
  refine ⟨_, e, ⟨⟨trivial, ⟨h1, ?_⟩, h2, ?_, ?_, rfl, by simp [addrs, addrsC], by simpa [addrs] using h3, ⟨rfl, rfl⟩, fun a _ => Agree.refl _ a⟩, rfl⟩,
    rfl, rfl, rfl, rfl, ?_⟩
  · simp [upd, addr]
  · simp [upd]
  · simp [upd]
  · intro x hx hy
    constructor <;> simp [upd, hx, hy]

theorem finite_upd {f : Nat → Bool} (h : Finite f) (a : Nat) (b : Bool) : Finite (upd f a b) := by
  obtain ⟨N, hN⟩ := h
  refine ⟨N + a + 1, fun x hx => ?_⟩
  rw [upd_ne _ _ (by omega)]
  exact hN x (by omega)

theorem new_sim {malloc : (Nat → Bool) → Nat} (hm : Allocator malloc) {h0 : Heap (K × V)} (hf : Finite h0.alive) :
    ∃ s, new malloc h0 = some s ∧ Holds s .nil ∧ s.size = 0 ∧
      (∀ x, s.h.alive x = true ↔ h0.alive x = true ∨ x ∈ [s.root, s.nil]) ∧ (∀ x ∈ [s.root, s.nil], h0.alive x = false) ∧
      ∀ x, x ∉ [s.root, s.nil] → Agree h0 s.h x := by
  have a1 := hm _ hf
  generalize hn : malloc h0.alive = nl at a1
  have a2 := hm _ (finite_upd hf nl true)
  generalize hr : malloc (upd h0.alive nl true) = rt at a2
  have ne : rt ≠ nl := by rintro rfl; rw [upd_same] at a2; cases a2
  rw [upd_ne _ _ ne] at a2
  obtain ⟨s', e, H, hs, e1, e2, e3, ag⟩ := reset_holds (s := ⟨allocAt (allocAt h0 nl) rt, rt, nl, 0⟩)
    (by simp [allocAt, upd]) (by simp [allocAt, upd]) ne
  simp only at e1 e2 e3 ag
  refine ⟨s', ?_, H, hs, ?_, ?_, ?_⟩
  · simp only [new, hn]
    rw [show (allocAt h0 nl).alive = upd h0.alive nl true from rfl, hr, e]
  · intro x
    simp only [e1, e2, e3, allocAt, upd, List.mem_cons, List.not_mem_nil, or_false]
    by_cases h1 : x = rt <;> by_cases h2 : x = nl <;> simp [h1, h2]
  · intro x hx
    simp only [e1, e2, List.mem_cons, List.not_mem_nil, or_false] at hx
    rcases hx with rfl | rfl
    · exact a2
    · exact a1
  · intro x hx
    simp only [e1, e2, List.mem_cons, List.not_mem_nil, or_false, not_or] at hx
    refine Agree.trans ?_ (ag x hx.1 hx.2)
    exact ⟨by simp [allocAt, upd, hx.1, hx.2], rfl, rfl, rfl, rfl, rfl⟩

/-- Destroying everything below the sentinel. -/
theorem Holds.destroyAll {s : St K V} {t : T (Nat × (K × V))} (H : Holds s t) :
    destroyRec s.nil (s.size + 1) s.h (addr s.nil t) = some (killed s.h (addrs t), (er t).post.map some) := by
  have nd := H.nd
  simp only [List.nodup_cons, List.mem_cons, not_or] at nd
  exact destroyRec_sim t s.h s.root _ H.z.rep nd.2.2 nd.2.1 (by rw [H.size]; omega)

theorem destroy_sim {s : St K V} {t : T (Nat × (K × V))} (H : Holds s t) :
    ∃ h', destroy s = some (h', (er t).post.map some) ∧
      h'.alive = (fun x => if x ∈ s.root :: s.nil :: addrs t then false else s.h.alive x) ∧ ∀ x, x ∉ s.root :: s.nil :: addrs t → Agree s.h h' x := by
  have nd := H.nd
  simp only [List.nodup_cons, List.mem_cons, not_or] at nd
  obtain ⟨⟨n1, n2⟩, n3, n4⟩ := nd
  have a1 : (killed s.h (addrs t)).alive s.root = true := by
    have := H.z.repC.1
    simp [killed, n2, this]
  have a2 : upd (killed s.h (addrs t)).alive s.root false s.nil = true := by
    rw [upd_ne _ _ (fun e => n1 e.symm)]
    have := H.z.nilAlive
    simp [killed, n3, this]
  refine ⟨{ killed s.h (addrs t) with alive := upd (upd (killed s.h (addrs t)).alive s.root false) s.nil false }, ?_, ?_, ?_⟩
  · simp [destroy, H.top, H.destroyAll, free, a1, a2]
  · funext x
    simp only [upd, killed, List.mem_cons]
    by_cases h1 : x = s.root <;> by_cases h2 : x = s.nil <;> by_cases h3 : x ∈ addrs t <;> simp [h1, h2, h3]
  · intro x hx
    simp only [List.mem_cons, not_or] at hx
    refine ⟨?_, rfl, rfl, rfl, rfl, rfl⟩
    simp [upd, killed, hx.1, hx.2.1, hx.2.2]

theorem clear_sim {malloc : (Nat → Bool) → Nat} (hm : Allocator malloc) {s : St K V} {t : T (Nat × (K × V))} (H : Holds s t)
    (hf : Finite s.h.alive) :
    ∃ s', clear malloc s = some (s', (er t).post.map some ++ [none]) ∧ Holds s' .nil ∧ s'.size = 0 ∧ s'.nil = s.nil ∧
      (∀ x, s'.h.alive x = true ↔ x = s'.root ∨ s.h.alive x = true ∧ x ∉ s.root :: addrs t) ∧
      (s.h.alive s'.root = false ∨ s'.root ∈ s.root :: addrs t) ∧
      ∀ x, x ∉ s.root :: s.nil :: addrs t → x ≠ s'.root → Agree s.h s'.h x := by
  have nd := H.nd
  simp only [List.nodup_cons, List.mem_cons, not_or] at nd
  obtain ⟨⟨n1, n2⟩, n3, n4⟩ := nd
  obtain ⟨r1, r2, r3, r4, r5⟩ := H.z.repC
  have d1 : destroyRec s.nil (s.size + 2) s.h s.root = some (killed s.h (s.root :: addrs t), (er t).post.map some ++ [none]) := by
    have ag := killed_agree s.h (l := addrs t) (x := s.root) n2
    have b1 : (killed s.h (addrs t)).alive s.root = true := ag.alive.trans r1
    have b2 : getR (killed s.h (addrs t)) s.root = some s.nil := by
      rw [getR, if_pos b1, show (killed s.h (addrs t)).right s.root = s.h.right s.root from rfl, r5]
    have b3 : nodeDestroy (killed s.h (addrs t)) s.root = some (killed s.h (s.root :: addrs t), none) := by
      simp only [nodeDestroy, getPay, b1, if_true, free, Option.bind_eq_bind, Option.bind_some, Option.some.injEq, Prod.mk.injEq]
      refine ⟨?_, r3⟩
      simp only [killed, Heap.mk.injEq, and_true]
      funext x
      simp only [upd, List.mem_cons]
      by_cases h1 : x = s.root <;> by_cases h2 : x ∈ addrs t <;> simp [h1, h2]
    have b4 : ∀ g : Heap (K × V), destroyRec s.nil (s.size + 1) g s.nil = some (g, []) := fun g => by simp [destroyRec]
    rw [show s.size + 2 = (s.size + 1) + 1 from rfl, destroyRec]
    simp [n1, H.top, H.destroyAll, b2, b4, b3]
  have hf' : Finite (killed s.h (s.root :: addrs t)).alive := by
    obtain ⟨N, hN⟩ := hf
    refine ⟨N, fun a ha => ?_⟩
    simp only [killed]
    split
    · rfl
    · exact hN a ha
  have fr := hm _ hf'
  generalize hr : malloc (killed s.h (s.root :: addrs t)).alive = rt at fr
  have nilA : (killed s.h (s.root :: addrs t)).alive s.nil = true := by
    have := H.z.nilAlive
    simp only [killed, List.mem_cons, n3, or_false, this]
    rw [if_neg (fun e => n1 e.symm)]
  have ne : rt ≠ s.nil := by rintro rfl; rw [nilA] at fr; cases fr
  obtain ⟨s', e, H', hs, e1, e2, e3, ag⟩ := reset_holds
    (s := { s with h := allocAt (killed s.h (s.root :: addrs t)) rt, root := rt })
    (by simp [allocAt, upd]) (by simp only [allocAt]; rw [upd_ne _ _ (fun e => ne e.symm)]; exact nilA) ne
  simp only at e1 e2 e3 ag
  refine ⟨s', by simp [clear, d1, hr, e], H', hs, e2, ?_, ?_, ?_⟩
  · intro x
    simp only [e3, e1, allocAt, upd, killed]
    by_cases h1 : x = rt
    · simp [h1]
    · by_cases h2 : x ∈ s.root :: addrs t <;> simp [h1, h2]
  · rw [e1]
    simp only [killed] at fr
    split at fr
    · right; assumption
    · left; exact fr
  · intro x hx hx2
    simp only [List.mem_cons, not_or] at hx
    rw [e1] at hx2
    refine Agree.trans (Agree.trans (killed_agree s.h (l := s.root :: addrs t) ?_) ?_) (ag x hx2 hx.2.1)
    · simp [hx.1, hx.2.2]
    · exact ⟨by simp [allocAt, upd, hx2], rfl, rfl, rfl, rfl, rfl⟩

theorem addrs_inorder {P : Type} (t : T (Nat × P)) : (addrs t).Perm ((inorder t).map Prod.fst) := by
  induction t with
  | nil => exact List.Perm.refl _
  | node c l p r ihl ihr =>
    simp only [addrs, inorder, List.map_append, List.map_cons]
    exact ((ihl.append ihr).cons _).trans List.perm_middle.symm

theorem inorder_map {P Q : Type} (f : P → Q) (t : T P) : inorder (t.map f) = (inorder t).map f := by
  induction t with
  | nil => rfl
  | node c l p r ihl ihr => simp [RB.T.map, inorder, ihl, ihr]

/-- What the memory is after a history. -/
structure Mem (h0 : Heap (K × V)) (s : St K V) (t : T (Nat × (K × V))) : Prop where
  holds : Holds s t
  alive : ∀ x, s.h.alive x = true ↔ h0.alive x = true ∨ x ∈ s.root :: s.nil :: addrs t
  fresh : ∀ x ∈ s.root :: s.nil :: addrs t, h0.alive x = false
  out : ∀ x, h0.alive x = true → Agree h0 s.h x

theorem Mem.finite {h0 : Heap (K × V)} {s : St K V} {t : T (Nat × (K × V))} (M : Mem h0 s t) (hf : Finite h0.alive) :
    Finite s.h.alive := by
  obtain ⟨N, hN⟩ := hf
  have : ∀ l : List Nat, ∃ M, ∀ x ∈ l, x < M := by
    intro l
    induction l with
    | nil => exact ⟨0, by simp⟩
    | cons a l ih =>
      obtain ⟨m, hm⟩ := ih
      refine ⟨max (a + 1) m, fun x hx => ?_⟩
      rcases List.mem_cons.mp hx with rfl | hx
      · omega
      · have := hm x hx; omega
  obtain ⟨m, hm⟩ := this (s.root :: s.nil :: addrs t)
  refine ⟨max N m, fun a ha => ?_⟩
  cases hs : s.h.alive a
  · rfl
  · rcases (M.alive a).mp hs with h | h
    · rw [hN a (by omega)] at h; cases h
    · have := hm a h; omega

/-- Where the pair with a given key is. -/
def At (cmp : K → K → Int) (s : St K V) (t : T (Nat × (K × V))) (a : Nat) (k : K) : Prop :=
  a ∈ addrs t ∧ ∃ p, s.h.pay a = some p ∧ cmp p.1 k = 0

theorem step_sim {malloc : (Nat → Bool) → Nat} (hm : Allocator malloc) {cmp : K → K → Int} {h0 : Heap (K × V)} (hf : Finite h0.alive)
    {s : St K V} {t : T (Nat × (K × V))} (M : Mem h0 s t) (op : MapSpec.Op K V) {t' : RB.Tree K V} {b : Bool} {d : List (K × V)}
    (e : stepImpl cmp ⟨er t, s.size⟩ op = some (t', b, d)) :
    ∃ s' t2, stepPtr malloc cmp s op = some (s', b, d.map some ++ List.replicate (clears [op]) none) ∧ Mem h0 s' t2 ∧ t' = ⟨er t2, s'.size⟩ ∧
      (SeqSpec.TotalPreorder cmp → ∀ a k, Keeps cmp k op → (∀ v ∈ d, ∀ k', (∃ w, op = .insert k' w) ∨ op = .remove k' → cmp v.1 k' = 0) →
        At cmp s t a k → At cmp s' t2 a k) := by
  have fs := M.finite hf
  have H := M.holds
  cases op with
  | insert k v =>
    have fr := hm _ fs
    obtain ⟨s', t2, e1, H', e2, er1, en, bt, bf, out⟩ := put_sim fr H e
    refine ⟨s', t2, by simp [stepPtr, e1, clears], ?_, e2, ?_⟩
    · cases b
      · obtain ⟨al, pm, pay⟩ := bf rfl
        have f0 : h0.alive (malloc s.h.alive) = false := by
          cases hh : h0.alive (malloc s.h.alive)
          · rfl
          · rw [(M.alive _).mpr (Or.inl hh)] at fr; cases fr
        refine ⟨H', ?_, ?_, ?_⟩
        · intro x
          rw [al, er1, en]
          simp only [upd, List.mem_cons, pm.mem_iff]
          have := M.alive x
          simp only [List.mem_cons] at this
          by_cases h1 : x = malloc s.h.alive
          · simp [h1]
          · simp only [h1, if_false, false_or]; exact this
        · intro x hx
          rw [er1, en] at hx
          simp only [List.mem_cons, pm.mem_iff] at hx
          by_cases h1 : x = malloc s.h.alive
          · rw [h1]; exact f0
          · exact M.fresh x (by simp only [List.mem_cons]; tauto)
        · intro x hx
          refine (M.out x hx).trans (out x ?_ ?_)
          · intro hh; rw [M.fresh x hh] at hx; cases hx
          · rintro - rfl; rw [f0] at hx; cases hx
      · obtain ⟨al, pm, _⟩ := bt rfl
        refine ⟨H', ?_, ?_, ?_⟩
        · intro x
          rw [al, er1, en]
          have := M.alive x
          simp only [List.mem_cons, pm.mem_iff] at this ⊢
          exact this
        · intro x hx
          rw [er1, en] at hx
          simp only [List.mem_cons, pm.mem_iff] at hx
          exact M.fresh x (by simp only [List.mem_cons]; exact hx)
        · intro x hx
          refine (M.out x hx).trans (out x ?_ (by simp))
          intro hh; rw [M.fresh x hh] at hx; cases hx
    · intro hc a k0 _ hd ⟨ha, p, hp, hk⟩
      cases b
      · obtain ⟨al, pm, pay⟩ := bf rfl
        have hne : a ≠ malloc s.h.alive := by
          rintro rfl
          rw [(M.alive _).mpr (Or.inr (by simp [ha]))] at fr; cases fr
        exact ⟨pm.mem_iff.mpr (by simp [ha]), p, by rw [pay, upd_ne _ _ hne]; exact hp, hk⟩
      · obtain ⟨al, pm, x, o, hd', o1, o2, o3⟩ := bt rfl
        by_cases hx : a = x
        · subst hx
          have : o = p := by rw [hp] at o1; exact (Option.some.inj o1).symm
          subst this
          refine ⟨pm.mem_iff.mpr ha, (k, v), o2, ?_⟩
          have h1 := hd o (by simp [hd']) k (Or.inl ⟨v, rfl⟩)
          have h2 := RB.cmp_zero_symm hc h1
          have := (RB.F_lawful hc).trans k o.1 k0 (by simpa [RB.F, keyEq] using h2) (by simpa [RB.F, keyEq] using hk)
          simpa [RB.F, keyEq] using this
        · exact ⟨pm.mem_iff.mpr ha, p, by rw [o3 a hx]; exact hp, hk⟩
  | remove k =>
    simp only [stepImpl, Option.map_eq_some_iff] at e
    obtain ⟨⟨t0, d0⟩, e, e'⟩ := e
    simp only [Prod.mk.injEq] at e'
    obtain ⟨rfl, rfl, rfl⟩ := e'
    rcases remove_sim H e with ⟨rfl, rfl, e1⟩ | ⟨v, a, s', t2, rfl, e1, rfl, ha, hp, hsz, R⟩
    · exact ⟨s, t, by simp [stepPtr, e1, clears], M, rfl, fun _ a k _ _ h => h⟩
    · have nd := R.perm.nodup_iff.mpr (by have := H.nd; simp only [List.nodup_cons] at this; exact this.2.2)
      simp only [List.nodup_cons] at nd
      have nd0 := H.nd
      simp only [List.nodup_cons, List.mem_cons, not_or] at nd0
      refine ⟨s', t2, by simp [stepPtr, e1, clears], ⟨R.holds, ?_, ?_, ?_⟩, rfl, ?_⟩
      · intro x
        rw [R.alive, R.root, R.nil]
        have := M.alive x
        simp only [List.mem_cons, ← R.perm.mem_iff] at this
        by_cases h1 : x = a
        · subst h1
          rw [upd_same]
          simp only [Bool.false_eq_true, false_iff, not_or, List.mem_cons]
          refine ⟨?_, ?_, ?_, nd.1⟩
          · rw [M.fresh x (by simp [ha])]; simp
          · rintro rfl; exact nd0.1.2 ha
          · rintro rfl; exact nd0.2.1 ha
        · rw [upd_ne _ _ h1, this]
          simp [h1]
      · intro x hx
        rw [R.root, R.nil] at hx
        refine M.fresh x ?_
        simp only [List.mem_cons, ← R.perm.mem_iff] at hx ⊢
        tauto
      · intro x hx
        refine (M.out x hx).trans (R.out x ?_)
        intro hh; rw [M.fresh x hh] at hx; cases hx
      · intro hc b k0 hk hd ⟨hb, p, hp', hk0⟩
        have hne : b ≠ a := by
          rintro rfl
          have : v = p := by rw [hp] at hp'; exact Option.some.inj hp'
          subst this
          have h1 := hd v (by simp) k (Or.inr rfl)
          have h2 := RB.cmp_zero_symm hc h1
          have := (RB.F_lawful hc).trans k v.1 k0 (by simpa [RB.F, keyEq] using h2) (by simpa [RB.F, keyEq] using hk0)
          exact hk (by simpa [RB.F, keyEq] using this)
        refine ⟨?_, p, by rw [R.pay]; exact hp', hk0⟩
        have := R.perm.mem_iff.mpr hb
        simp only [List.mem_cons] at this
        tauto
  | clear =>
    simp only [stepImpl, RB.clear, Option.some.injEq, Prod.mk.injEq] at e
    obtain ⟨rfl, rfl, rfl⟩ := e
    obtain ⟨s', e1, H', hs, en, al, fr, out⟩ := clear_sim hm H fs
    have f0 : h0.alive s'.root = false := by
      rcases fr with h | h
      · cases hh : h0.alive s'.root
        · rfl
        · rw [(M.alive _).mpr (Or.inl hh)] at h; cases h
      · exact M.fresh _ (by simp only [List.mem_cons] at h ⊢; tauto)
    have nd0 := H.nd
    simp only [List.nodup_cons, List.mem_cons, not_or] at nd0
    refine ⟨s', .nil, by simp [stepPtr, e1, clears], ⟨H', ?_, ?_, ?_⟩, by rw [hs]; rfl, fun _ a k hk => absurd hk (by simp [Keeps])⟩
    · intro x
      rw [al, en]
      have := M.alive x
      have fx := M.fresh x
      simp only [List.mem_cons, addrs, List.not_mem_nil, or_false, not_or] at this fx ⊢
      constructor
      · rintro (h | ⟨h, h1, h2⟩)
        · simp [h]
        · rcases this.mp h with h | h | h | h
          · exact Or.inl h
          · exact absurd h h1
          · exact Or.inr (Or.inr h)
          · exact absurd h h2
      · rintro (h | h | h)
        · right
          refine ⟨this.mpr (Or.inl h), ?_, ?_⟩
          · intro hh; rw [fx (Or.inl hh)] at h; cases h
          · intro hh; rw [fx (Or.inr (Or.inr hh))] at h; cases h
        · exact Or.inl h
        · right
          refine ⟨this.mpr (Or.inr (Or.inr (Or.inl h))), ?_, ?_⟩
          · rintro rfl; exact nd0.1.1 h
          · rintro hh; rw [h] at hh; exact nd0.2.1 hh
    · intro x hx
      rw [en] at hx
      simp only [List.mem_cons, addrs, List.not_mem_nil, or_false] at hx
      rcases hx with rfl | rfl
      · exact f0
      · exact M.fresh _ (by simp)
    · intro x hx
      refine (M.out x hx).trans (out x ?_ ?_)
      · intro hh; rw [M.fresh x hh] at hx; cases hx
      · rintro rfl; rw [f0] at hx; cases hx

/-- A whole history. -/
theorem run_sim {malloc : (Nat → Bool) → Nat} (hm : Allocator malloc) {cmp : K → K → Int} (hc : SeqSpec.TotalPreorder cmp)
    {h0 : Heap (K × V)} (hf : Finite h0.alive) (h : List (MapSpec.Op K V)) :
    ∃ s t d d', runPtr malloc cmp h0 h = some (s, d') ∧ Mem h0 s t ∧ runImpl cmp h = some (⟨er t, s.size⟩, d) ∧
      RB.Hist cmp h ⟨er t, s.size⟩ d ∧ d'.filterMap id = d ∧ d'.length = d.length + clears h := by
  induction h with
  | nil =>
    obtain ⟨s, e, H, hs, al, fr, out⟩ := new_sim hm hf
    refine ⟨s, .nil, [], [], by simp [runPtr, e], ⟨H, al, fr, ?_⟩, by rw [hs]; rfl, ?_, rfl, rfl⟩
    · intro x hx
      refine out x fun hh => ?_
      rw [fr x hh] at hx; cases hx
    · obtain ⟨t, d, e, H⟩ := RB.run_spec hc ([] : List (MapSpec.Op K V))
      simp only [runImpl, Option.some.injEq, Prod.mk.injEq] at e
      obtain ⟨rfl, rfl⟩ := e
      rw [hs]
      exact H
  | cons op h ih =>
    obtain ⟨s, t, d, d', e, M, ei, Hi, f, len⟩ := ih
    obtain ⟨t', d2, e', -, H'⟩ := RB.step_spec hc Hi op
    obtain ⟨s', t2, es, M', rfl, -⟩ := step_sim hm hf M op e'
    refine ⟨s', t2, d ++ d2, d' ++ (d2.map some ++ List.replicate (clears [op]) none), by simp [runPtr, e, es], M',
      by simp [runImpl, ei, e'], H', ?_, ?_⟩
    · simp [List.filterMap_append, f, List.filterMap_map, Function.comp_def]
    · have : clears (op :: h) = clears h + clears [op] := by cases op <;> simp [clears]
      simp only [List.length_append, List.length_map, List.length_replicate, len, this]
      omega

/-! ## Iteration -/

/-- The pointer to the first of a list of nodes. -/
def first (nil : Nat) : List (Nat × (K × V)) → Nat
  | [] => nil
  | p :: _ => p.1

theorem split_unique {A B A' B' : List (Nat × (K × V))} {p q : Nat × (K × V)} (nd : ((A ++ p :: B).map Prod.fst).Nodup)
    (e : A ++ p :: B = A' ++ q :: B') (h : p.1 = q.1) : p = q ∧ B = B' := by
  induction A generalizing A' with
  | nil =>
    cases A' with
    | nil => simp at e; exact e
    | cons a A' =>
      simp only [List.nil_append, List.cons_append, List.cons.injEq] at e
      obtain ⟨rfl, rfl⟩ := e
      simp [h] at nd
  | cons a A ih =>
    cases A' with
    | nil =>
      simp only [List.nil_append, List.cons_append, List.cons.injEq] at e
      obtain ⟨rfl, rfl⟩ := e
      simp [h] at nd
    | cons a' A' =>
      simp only [List.cons_append, List.cons.injEq] at e
      simp only [List.cons_append, List.map_cons, List.nodup_cons] at nd
      exact ih nd.2 e.2

theorem next_inorder {s : St K V} {t : T (Nat × (K × V))} (H : Holds s t) {A B : List (Nat × (K × V))} {p : Nat × (K × V)}
    (e : inorder t = A ++ p :: B) :
    next s.root s.nil (s.size + 1) s.h p.1 = some (first s.nil B) ∧ getPay s.h p.1 = some (some p.2) ∧ p.1 ≠ s.nil := by
  have hin : p.1 ∈ addrs t := (addrs_inorder t).mem_iff.mpr (by rw [e]; simp)
  obtain ⟨c, l, q, r, ctx, hp, hq⟩ := exists_focus p.1 t [] hin
  have z := Z.fromTop ctx (t := .node c l q r) (by rw [hp]; exact H.z)
  have nd : ((inorder t).map Prod.fst).Nodup := by
    refine (addrs_inorder t).nodup_iff.mp ?_
    have := H.nd
    simp only [List.nodup_cons] at this
    exact this.2.2
  have e2 := RB.inorder_plug ctx (.node c l q r)
  rw [hp] at e2
  simp only [plug, inorder] at e2
  rw [show RB.lft ctx ++ (inorder l ++ q :: inorder r) ++ RB.rgt ctx = (RB.lft ctx ++ inorder l) ++ q :: (inorder r ++ RB.rgt ctx) by simp] at e2
  obtain ⟨rfl, hB⟩ := split_unique (by rw [← e]; exact nd) (e.symm.trans e2) hq.symm
  have len := z.perm.length_eq
  refine ⟨?_, z.readPay, z.ne_nil.1⟩
  rcases next_sim (n := s.size + 1) z (by simp only [List.length_cons]; rw [H.size]; omega) with ⟨n1, n2⟩ | ⟨c', l', p', r', ctx', n1, n2, n3⟩
  · rcases RB.next_spec c l r p ctx with ⟨-, m2⟩ | ⟨_, _, _, _, _, m1, -⟩
    · rw [n2, hB, m2]; rfl
    · rw [n1] at m1; cases m1
  · rcases RB.next_spec c l r p ctx with ⟨m1, -⟩ | ⟨_, _, p2, _, _, m1, m2⟩
    · rw [n1] at m1; cases m1
    · rw [n1] at m1
      simp only [Option.some.injEq, Prod.mk.injEq, RB.T.node.injEq] at m1
      obtain ⟨⟨rfl, rfl, rfl, rfl⟩, rfl⟩ := m1
      rw [n3, hB, m2]; rfl

theorem iterNew_sim {s : St K V} {t : T (Nat × (K × V))} (H : Holds s t) (ht : t ≠ .nil) :
    iterNew s = some (first s.nil (inorder t)) := by
  have hne : addr s.nil t ≠ s.nil := by
    cases t with
    | nil => exact absurd rfl ht
    | node c l p r => exact H.z.ne_nil.1
  obtain ⟨c, p, r, ctx', l1, l2, l3⟩ := leftmost_sim t [] s.size ht H.z (by rw [H.size]; omega)
  obtain ⟨c', p', r', pre, m1, m2, m3, -⟩ := RB.leftmost_spec t [] ht
  rw [l1] at m1
  simp only [Prod.mk.injEq, RB.T.node.injEq, true_and] at m1
  obtain ⟨⟨rfl, rfl, rfl⟩, -⟩ := m1
  have : iterNew s = leftmost s.nil s.h s.size (addr s.nil t) := by
    simp [iterNew, leftmost, H.top, hne]
  rw [this, l3, m3]
  rfl

/-- One step of an iterator standing on a node. -/
theorem iterNext_sim {s : St K V} {t : T (Nat × (K × V))} (H : Holds s t) {A B : List (Nat × (K × V))} {p : Nat × (K × V)}
    (e : inorder t = A ++ p :: B) : iterNext s p.1 = some (some (some p.2), first s.nil B) := by
  obtain ⟨e1, e2, e3⟩ := next_inorder H e
  have hs : s.size ≠ 0 := by
    rw [H.size, (addrs_inorder t).length_eq, e]
    simp
  simp [iterNext, hs, e3, e2, e1]

theorem collect_sim {s : St K V} {t : T (Nat × (K × V))} (H : Holds s t) (B : List (Nat × (K × V))) :
    ∀ (A : List (Nat × (K × V))) (n : Nat), inorder t = A ++ B → B.length < n →
    collect s n (first s.nil B) = some (B.map fun p => (p.1, some p.2)) := by
  induction B with
  | nil =>
    intro A n _ hn
    obtain ⟨m, rfl⟩ : ∃ m, n = m + 1 := ⟨n - 1, by omega⟩
    by_cases hs : s.size = 0 <;> simp [collect, iterNext, first, hs]
  | cons p B ih =>
    intro A n e hn
    obtain ⟨m, rfl⟩ : ∃ m, n = m + 1 := ⟨n - 1, by omega⟩
    have := ih (A ++ [p]) m (by simpa using e) (by simpa using hn)
    rw [show first s.nil (p :: B) = p.1 from rfl]
    simp [collect, iterNext_sim H e, this]

theorem visits_sim {s : St K V} {t : T (Nat × (K × V))} (H : Holds s t) :
    visits s = some ((inorder t).map fun p => (p.1, some p.2)) := by
  have hl : (inorder t).length = s.size := by rw [H.size, (addrs_inorder t).length_eq, List.length_map]
  by_cases ht : t = .nil
  · subst ht
    simp only [inorder, List.length_nil] at hl
    have : getL s.h s.root = some s.nil := H.top
    have hi : iterNew s = some s.root := by simp [iterNew, leftmost, this]
    simp [visits, hi, collect, iterNext, ← hl, inorder]
  · simp only [visits, iterNew_sim H ht, Option.bind_eq_bind, Option.bind_some]
    exact collect_sim H _ [] _ rfl (by omega)

end hist
end RBPtr
