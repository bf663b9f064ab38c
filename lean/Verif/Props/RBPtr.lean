import Verif.Lemmas.RBPtrHist
/-! # C161-C163: the red-black tree as nodes and pointers in memory -/
namespace RBPtr
open RBSpec RBPtrSpec
open MapSpec (Op lookup Enumerates expectedReturn)
open SeqSpec (TotalPreorder)

/-- **C161**. In every memory, for every allocator that returns a free block, every total preorder and every history (newest call
first) of puts, removes and clears on a tree from `RBTreeNew`: no call reads or writes a node that is not allocated, or runs for
ever; `RBTreeGet` answers the value of the last put of an equal key not removed or cleared since; the next call, whatever it is,
also runs and returns whether an equal key is present; and the pairs handed to the destructors together with those still stored
are exactly the pairs handed to `RBTreePut`. -/
theorem C161_pointer_tree_is_a_finite_map {K V : Type} (malloc : (Nat → Bool) → Nat) (hm : Allocator malloc) (cmp : K → K → Int)
    (hc : TotalPreorder cmp) (h0 : Heap (K × V)) (hf : Finite h0.alive) (h : List (Op K V)) :
    ∃ s d l, runPtr malloc cmp h0 h = some (s, d) ∧ (∀ k, get cmp s k = some ((lookup (keyEq cmp) h k).map (·.2))) ∧
      Enumerates (keyEq cmp) (lookup (keyEq cmp) h) l ∧ s.size = l.length ∧ (d.filterMap id ++ l).Perm (insertedPairs h) ∧
      ∀ op, ∃ s' d', stepPtr malloc cmp s op = some (s', expectedReturn (keyEq cmp) h op, d') ∧
        (d'.filterMap id).Perm (expectedDestroyed (keyEq cmp) h l op) := by
  obtain ⟨s, t, d, d', e, M, ei, Hi, fl, len⟩ := run_sim hm hc hf h
  have hnd := RB.inc_noDup hc Hi.good.inc
  refine ⟨s, d', inorder (er t), e, ?_, ⟨hnd, ?_⟩, Hi.good.size, ?_, ?_⟩
  · intro k; rw [get_sim M.holds, RB.get_spec hc Hi.good, Hi.look]
  · intro k p; rw [← Hi.look]; exact CMap.find_iff (RB.F_lawful hc) hnd k p
  · rw [fl]; exact Hi.bal
  · intro op
    obtain ⟨t', d2, e', hd, -⟩ := RB.step_spec hc Hi op
    obtain ⟨s', t2, es, -, -, -⟩ := step_sim hm hf M op e'
    refine ⟨s', _, es, ?_⟩
    simpa [List.filterMap_append, List.filterMap_map, Function.comp_def] using hd

/-- **C162**. After every history exactly these blocks are allocated: those that were before, two sentinels, and one node for
each stored pair, all different, and none was in use before; what was in memory before is unchanged. `RBTreeDestroy` then runs,
hands exactly the stored pairs to the destructors, frees every block of the tree and nothing else. -/
theorem C162_memory_is_exactly_accounted {K V : Type} (malloc : (Nat → Bool) → Nat) (hm : Allocator malloc) (cmp : K → K → Int)
    (hc : TotalPreorder cmp) (h0 : Heap (K × V)) (hf : Finite h0.alive) (h : List (Op K V)) :
    ∃ s d nodes l, runPtr malloc cmp h0 h = some (s, d) ∧ Enumerates (keyEq cmp) (lookup (keyEq cmp) h) l ∧
      (s.root :: s.nil :: nodes).Nodup ∧ nodes.map s.h.pay = l.map some ∧
      (∀ a ∈ s.root :: s.nil :: nodes, h0.alive a = false) ∧
      (∀ a, s.h.alive a = true ↔ h0.alive a = true ∨ a ∈ s.root :: s.nil :: nodes) ∧
      (∀ a, h0.alive a = true → Untouched h0 s.h a) ∧
      ∃ h' d', destroy s = some (h', d') ∧ d'.Perm (l.map some) ∧ h'.alive = h0.alive ∧ ∀ a, h0.alive a = true → Untouched h0 h' a := by
  obtain ⟨s, t, d, d', e, M, ei, Hi, fl, len⟩ := run_sim hm hc hf h
  have hnd := RB.inc_noDup hc Hi.good.inc
  have pm := addrs_inorder t
  have mem : ∀ a, a ∈ s.root :: s.nil :: (inorder t).map Prod.fst ↔ a ∈ s.root :: s.nil :: addrs t := fun a => by
    simp only [List.mem_cons, pm.mem_iff]
  have pays : ((inorder t).map Prod.fst).map s.h.pay = (inorder (er t)).map some := by
    rw [inorder_map, List.map_map, List.map_map]
    refine List.map_congr_left fun p hp => ?_
    obtain ⟨A, B, hs⟩ := List.append_of_mem hp
    obtain ⟨-, h2, -⟩ := next_inorder M.holds hs
    have := M.holds.z.mem_alive p.1 (by simp only [List.mem_cons]; exact Or.inr (Or.inr (pm.mem_iff.mpr (List.mem_map_of_mem hp))))
    simpa [getPay, this] using h2
  refine ⟨s, d', (inorder t).map Prod.fst, inorder (er t), e, ⟨hnd, ?_⟩, ?_, pays, ?_, ?_, ?_, ?_⟩
  · intro k p; rw [← Hi.look]; exact CMap.find_iff (RB.F_lawful hc) hnd k p
  · exact ((pm.cons s.nil).cons s.root).nodup_iff.mp M.holds.nd
  · intro a ha; exact M.fresh a ((mem a).mp ha)
  · intro a; rw [mem]; exact M.alive a
  · intro a ha
    have g := M.out a ha
    exact ⟨g.alive, g.red, g.left, g.right, g.parent, g.pay⟩
  · obtain ⟨h', e1, al, out⟩ := destroy_sim M.holds
    refine ⟨h', _, e1, (RB.post_perm _).map some, ?_, ?_⟩
    · rw [al]
      funext x
      by_cases hx : x ∈ s.root :: s.nil :: addrs t
      · rw [if_pos hx, M.fresh x hx]
      · rw [if_neg hx]
        have := M.alive x
        cases h1 : s.h.alive x <;> cases h2 : h0.alive x <;> simp_all
    · intro a ha
      have g := (M.out a ha).trans (out a fun hx => by rw [M.fresh a hx] at ha; cases ha)
      exact ⟨g.alive, g.red, g.left, g.right, g.parent, g.pay⟩

/-- **C162**, a finding. `RBTreeClear` also calls the destructors on the null key and value of a sentinel: after every history the
destructors have been called with NULL once for each clear. -/
theorem C162_clear_destroys_null {K V : Type} (malloc : (Nat → Bool) → Nat) (hm : Allocator malloc) (cmp : K → K → Int)
    (hc : TotalPreorder cmp) (h0 : Heap (K × V)) (hf : Finite h0.alive) (h : List (Op K V)) :
    ∃ s d, runPtr malloc cmp h0 h = some (s, d) ∧ d.countP Option.isNone = clears h := by
  obtain ⟨s, t, d, d', e, M, ei, Hi, fl, len⟩ := run_sim hm hc hf h
  refine ⟨s, d', e, ?_⟩
  have h2 : d'.length = (d'.filterMap id).length + d'.countP Option.isNone := by
    clear e fl len
    induction d' with
    | nil => rfl
    | cons a d' ih => cases a <;> simp [ih] <;> omega
  rw [fl] at h2
  omega

/-- **C163**. An iteration over the nodes in memory delivers the stored pairs in strictly increasing key order, each once, and
never touches a node that is not allocated. An iterator that stands on a node survives every later put, and every remove of
another key, whatever rotations they cause: afterwards it delivers the pair now stored under its key and goes on exactly like a
new iterator that has arrived there. -/
theorem C163_iterators_survive_other_changes {K V : Type} (malloc : (Nat → Bool) → Nat) (hm : Allocator malloc) (cmp : K → K → Int)
    (hc : TotalPreorder cmp) (h0 : Heap (K × V)) (hf : Finite h0.alive) (h : List (Op K V)) :
    ∃ s d vis l, runPtr malloc cmp h0 h = some (s, d) ∧ visits s = some vis ∧ vis.map (·.2) = l.map some ∧ Increasing cmp l ∧
      Enumerates (keyEq cmp) (lookup (keyEq cmp) h) l ∧
      ∀ a k v, (a, some (k, v)) ∈ vis → ∀ h2 : List (Op K V), (∀ op ∈ h2, Keeps cmp k op) →
        ∃ s2 d2 A B p, runPtr malloc cmp h0 (h2 ++ h) = some (s2, d2) ∧ visits s2 = some (A ++ (a, some p) :: B) ∧
          lookup (keyEq cmp) (h2 ++ h) k = some p ∧
          iterNext s2 a = some (some (some p), (B.head?.map (·.1)).getD s2.nil) := by
  obtain ⟨s, t, d, d', e, M, ei, Hi, fl, len⟩ := run_sim hm hc hf h
  have hnd := RB.inc_noDup hc Hi.good.inc
  refine ⟨s, d', _, inorder (er t), e, visits_sim M.holds, ?_, Hi.good.inc, ⟨hnd, ?_⟩, ?_⟩
  · rw [inorder_map]; simp [Function.comp_def]
  · intro k p; rw [← Hi.look]; exact CMap.find_iff (RB.F_lawful hc) hnd k p
  · intro a k v hin h2 hk
    have payOf : ∀ {s : St K V} {t : RB.T (Nat × (K × V))}, Holds s t → ∀ p ∈ inorder t, s.h.pay p.1 = some p.2 := by
      intro s t H p hp
      obtain ⟨A, B, hs⟩ := List.append_of_mem hp
      obtain ⟨-, h2, -⟩ := next_inorder H hs
      have := H.z.mem_alive p.1 (by simp only [List.mem_cons]; exact Or.inr (Or.inr ((addrs_inorder t).mem_iff.mpr (List.mem_map_of_mem hp))))
      simpa [getPay, this] using h2
    -- the node stays where it is
    have key : ∀ h2 : List (Op K V), (∀ op ∈ h2, Keeps cmp k op) → ∃ s t d d', runPtr malloc cmp h0 (h2 ++ h) = some (s, d') ∧ Mem h0 s t ∧
        RB.Hist cmp (h2 ++ h) ⟨er t, s.size⟩ d ∧ At cmp s t a k := by
      intro h2
      induction h2 with
      | nil =>
        intro _
        refine ⟨s, t, d, d', e, M, Hi, ?_⟩
        simp only [List.mem_map, Prod.mk.injEq, Option.some.injEq] at hin
        obtain ⟨p, hp, rfl, hp2⟩ := hin
        refine ⟨(addrs_inorder t).mem_iff.mpr (List.mem_map_of_mem hp), p.2, payOf M.holds p hp, ?_⟩
        rw [hp2]
        simpa [RB.F, keyEq] using (RB.F_lawful hc).refl k
      | cons op h2 ih =>
        intro hk
        obtain ⟨s, t, d, d', e, M, Hi, ha⟩ := ih fun op hop => hk op (List.mem_cons_of_mem _ hop)
        obtain ⟨t', d2, e', hd, H'⟩ := RB.step_spec hc Hi op
        obtain ⟨s', t2, es, M', rfl, st⟩ := step_sim hm hf M op e'
        refine ⟨s', t2, _, _, by simp only [List.cons_append, runPtr, e, es, Option.bind_eq_bind, Option.bind_some]; rfl, M', H', st hc a k (hk op (by simp)) ?_ ha⟩
        intro w hw k' hop
        have hw' := hd.mem_iff.mp hw
        have hl : (lookup (keyEq cmp) (h2 ++ h) k') = some w := by
          rcases hop with ⟨x, rfl⟩ | rfl <;> simpa [expectedDestroyed] using hw'
        rw [← Hi.look] at hl
        have := List.find?_some hl
        simpa [CMap.hit, RB.F, keyEq] using this
    obtain ⟨s2, t2, d2, d2', e2, M2, Hi2, ⟨ha, p, hp, hpk⟩⟩ := key h2 hk
    obtain ⟨q, hq, hqa⟩ := List.mem_map.mp ((addrs_inorder t2).mem_iff.mp ha)
    have hqp : q.2 = p := by
      have := payOf M2.holds q hq
      rw [hqa, hp] at this
      exact (Option.some.inj this).symm
    obtain ⟨A, B, hs⟩ := List.append_of_mem hq
    refine ⟨s2, d2', A.map (fun p => (p.1, some p.2)), B.map (fun p => (p.1, some p.2)), p, e2, ?_, ?_, ?_⟩
    · rw [visits_sim M2.holds, hs]; simp [hqa, hqp]
    · rw [← Hi2.look]
      refine (CMap.find_iff (RB.F_lawful hc) (RB.inc_noDup hc Hi2.good.inc) k p).mpr ⟨?_, ?_⟩
      · rw [inorder_map, ← hqp]; exact List.mem_map_of_mem hq
      · simpa [RB.F, keyEq] using hpk
    · have := iterNext_sim M2.holds hs
      rw [hqa, hqp] at this
      rw [this]
      cases B <;> simp [first]

/-- An allocator: the lowest free block. -/
noncomputable def demoMalloc (alive : Nat → Bool) : Nat :=
  ((List.range 16).find? fun a => !alive a).getD (Classical.epsilon fun a => alive a = false)

theorem demoMalloc_ok : Allocator demoMalloc := by
  intro alive ⟨N, hN⟩
  unfold demoMalloc
  cases h : (List.range 16).find? fun a => !alive a with
  | some a => simpa using List.find?_some h
  | none => exact Classical.epsilon_spec (p := fun a => alive a = false) ⟨N, hN N (Nat.le_refl N)⟩

/-- Memory with one block in use. -/
def demoHeap : Heap (Nat × Nat) := ⟨fun a => a == 1, fun _ => true, fun _ => 7, fun _ => 7, fun _ => 7, fun _ => some (9, 9)⟩

theorem demoHeap_finite : Finite demoHeap.alive := ⟨2, fun a ha => by simp [demoHeap]; omega⟩

/-- Comparing numbers. -/
def natCmp (a b : Nat) : Int := (a : Int) - b

theorem natCmp_total : TotalPreorder natCmp := by
  refine ⟨?_, ?_, ?_⟩ <;> intros <;> simp only [natCmp] at * <;> omega

/-- **C163**, the limit. If the key an iterator stands on is removed while other pairs stay, the next step of the iterator reads a
freed node. -/
theorem C163_removed_iterator_negated :
    ∃ (s s2 : St Nat Nat) (d d2 : List (Option (Nat × Nat))) (a : Nat),
      runPtr demoMalloc natCmp demoHeap [.insert 2 20, .insert 1 10] = some (s, d) ∧ iterNew s = some a ∧ s.h.pay a = some (1, 10) ∧
      runPtr demoMalloc natCmp demoHeap [.remove 1, .insert 2 20, .insert 1 10] = some (s2, d2) ∧ s2.h.alive a = false ∧
      iterNext s2 a = none := by
  obtain ⟨s, t, d, d', e, M, -⟩ := run_sim demoMalloc_ok natCmp_total demoHeap_finite [.insert 2 20, .insert 1 10]
  obtain ⟨s2, t2, d2, d2', e2, M2, -⟩ := run_sim demoMalloc_ok natCmp_total demoHeap_finite [.remove 1, .insert 2 20, .insert 1 10]
  have h1 : (runPtr demoMalloc natCmp demoHeap [.insert 2 20, .insert 1 10]).bind (fun r => (iterNew r.1).map fun a => (a, r.1.h.pay a)) =
      some (3, some (1, 10)) := by decide +kernel
  have h2 : (runPtr demoMalloc natCmp demoHeap [.remove 1, .insert 2 20, .insert 1 10]).map (fun r => (r.1.h.alive 3, r.1.size, r.1.nil)) =
      some (false, 1, 0) := by decide +kernel
  simp only [e, Option.bind_some, Option.map_eq_some_iff, Prod.mk.injEq] at h1
  simp only [e2, Option.map_some, Option.some.injEq, Prod.mk.injEq] at h2
  obtain ⟨a, h11, rfl, h12⟩ := h1
  refine ⟨s, s2, d', d2', 3, e, h11, h12, e2, h2.1, ?_⟩
  simp [iterNext, h2.2.1, h2.2.2, getPay, h2.1]

/-- **C163**, a finding. An iterator made on an empty tree stands on the sentinel: if a pair is put before its first step, that
step returns true and delivers a null key and a null value, and the pair is never delivered. -/
theorem C163_iterator_on_empty_tree_negated :
    ∃ (s s2 : St Nat Nat) (d d2 : List (Option (Nat × Nat))) (a : Nat),
      runPtr demoMalloc natCmp demoHeap [] = some (s, d) ∧ iterNew s = some a ∧
      runPtr demoMalloc natCmp demoHeap [.insert 1 10] = some (s2, d2) ∧ collect s2 3 a = some [(a, none)] := by
  obtain ⟨s, t, d, d', e, M, -⟩ := run_sim demoMalloc_ok natCmp_total demoHeap_finite []
  obtain ⟨s2, t2, d2, d2', e2, M2, -⟩ := run_sim demoMalloc_ok natCmp_total demoHeap_finite [.insert 1 10]
  have h1 : (runPtr demoMalloc natCmp demoHeap []).bind (fun r => iterNew r.1) = some 2 := by decide +kernel
  have h2 : (runPtr demoMalloc natCmp demoHeap [.insert 1 10]).bind (fun r => collect r.1 3 2) = some [(2, none)] := by decide +kernel
  simp only [e, e2, Option.bind_some] at h1 h2
  exact ⟨s, s2, d', d2', 2, e, h1, e2, h2⟩

/-- The hypotheses are met, and the pointer program can be run: five puts, a remove of a node with two children, and before
them a put and a clear. -/
example : Allocator demoMalloc ∧ TotalPreorder natCmp ∧ Finite demoHeap.alive ∧
    (runPtr demoMalloc natCmp demoHeap [.remove 4, .insert 6 0, .insert 5 0, .insert 4 0, .insert 2 0, .insert 1 0, .clear, .insert 9 9]).bind
      (fun r => (visits r.1).map fun v => (v, r.2)) =
    some ([(3, some (1, 0)), (4, some (2, 0)), (6, some (5, 0)), (7, some (6, 0))], [some (9, 9), none, some (4, 0)]) := by
  refine ⟨demoMalloc_ok, natCmp_total, demoHeap_finite, ?_⟩
  decide +kernel

end RBPtr
