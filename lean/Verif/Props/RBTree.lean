import Verif.Lemmas.RBTree
/-! # C10-C13, C57, C58: red-black tree -/
open RB RBSpec
open MapSpec (Op lookup Enumerates expectedReturn)
open SeqSpec (TotalPreorder)

/-- **C10**. For every comparator that is a total preorder and every history `h` (newest call first) of puts, removes and
clears: no undefined step (in particular every loop of the rebalancing terminates), `RBTreeGet` answers the value of the last
put of an equal key not removed or cleared since, `RBTreeSize` is the number of live pairs, and the next call returns whether
an equal key is present. -/
theorem C10_rbtree_is_a_finite_map {K V : Type} (cmp : K → K → Int) (hc : TotalPreorder cmp) (h : List (Op K V)) :
    ∃ t d l, RBSpec.runImpl cmp h = some (t, d) ∧
      (∀ k, get cmp t k = (lookup (keyEq cmp) h k).map (·.2)) ∧
      Enumerates (keyEq cmp) (lookup (keyEq cmp) h) l ∧ t.size = l.length ∧
      ∀ op, ∃ t' d', RBSpec.stepImpl cmp t op = some (t', expectedReturn (keyEq cmp) h op, d') := by
  obtain ⟨t, d, e, H⟩ := run_spec hc h
  have hnd := inc_noDup hc H.good.inc
  refine ⟨t, d, inorder t.root, e, ?_, ⟨?_, ?_⟩, H.good.size, ?_⟩
  · intro k; rw [get_spec hc H.good, H.look]
  · exact hnd
  · intro k p; rw [← H.look]; exact CMap.find_iff (F_lawful hc) hnd k p
  · intro op
    obtain ⟨t', d', e', -⟩ := step_spec hc H op
    exact ⟨t', d', e'⟩

/-- **C11**. Calling `RBTreeIteratorNext` until it returns false yields, in strictly increasing key order, exactly the live
pairs, each once. -/
theorem C11_iteration_sorted_and_complete {K V : Type} (cmp : K → K → Int) (hc : TotalPreorder cmp) (h : List (Op K V)) :
    ∃ t d l, RBSpec.runImpl cmp h = some (t, d) ∧ iterate t = some l ∧ Increasing cmp l ∧
      Enumerates (keyEq cmp) (lookup (keyEq cmp) h) l := by
  obtain ⟨t, d, e, H⟩ := run_spec hc h
  have hnd := inc_noDup hc H.good.inc
  refine ⟨t, d, inorder t.root, e, iterate_spec H.good, H.good.inc, hnd, ?_⟩
  intro k p; rw [← H.look]; exact CMap.find_iff (F_lawful hc) hnd k p

/-- **C12**. After every history the tree is a red-black tree and its height is at most `2 log2 (size + 1)`. -/
theorem C12_tree_is_balanced {K V : Type} (cmp : K → K → Int) (hc : TotalPreorder cmp) (h : List (Op K V)) :
    ∃ t d, RBSpec.runImpl cmp h = some (t, d) ∧ IsRedBlack t.root ∧ height t.root ≤ 2 * Nat.log2 (t.size + 1) := by
  obtain ⟨t, d, e, H⟩ := run_spec hc h
  obtain ⟨n, hok⟩ := H.good.ok
  have h1 := ok_isRedBlack t.root n hok
  have h2 := ok_height t.root n hok
  refine ⟨t, d, e, ⟨H.good.black, h1.1, n, h1.2⟩, ?_⟩
  have hb := h2.2
  rw [H.good.black] at hb
  have : n ≤ Nat.log2 (t.size + 1) := (Nat.le_log2 (by omega)).mpr (by rw [H.good.size]; exact h2.1)
  simp at hb; omega

/-- **C13** (partial). For a non-empty tree and every filter selecting an even number of pairs, or exactly one, `RBTreeCopy`
iterates over exactly the selected pairs, in the same order. Missing: the other cases, where the code does not do this; they
are settled by `C13_copy_loses_the_largest` and `C13_copy_of_empty_is_undefined`. -/
theorem C13_copy_partial {K V : Type} (cmp : K → K → Int) (hc : TotalPreorder cmp) (h : List (Op K V)) (filter : K × V → Bool) :
    ∃ t d l, RBSpec.runImpl cmp h = some (t, d) ∧ iterate t = some l ∧
      (l ≠ [] → (l.filter filter).length % 2 = 0 ∨ (l.filter filter).length = 1 →
        ∃ t', RB.copy cmp filter t = some t' ∧ iterate t' = some (l.filter filter) ∧ t'.size = (l.filter filter).length) := by
  obtain ⟨t, d, e, H⟩ := run_spec hc h
  refine ⟨t, d, inorder t.root, e, iterate_spec H.good, ?_⟩
  intro hne hcnt
  have hroot : t.root ≠ .nil := by intro hr; rw [hr] at hne; exact hne rfl
  obtain ⟨t', e', g', hi⟩ := copy_spec hc H.good filter hroot
  rw [if_neg (by omega)] at hi
  exact ⟨t', e', by rw [iterate_spec g', hi], by rw [g'.size, hi]⟩

/-- **C13, refuted part**. Whenever the number of selected pairs is odd and more than one, the copy is the selection without its
largest pair, so it is *not* equal to the original. -/
theorem C13_copy_loses_the_largest {K V : Type} (cmp : K → K → Int) (hc : TotalPreorder cmp) (h : List (Op K V))
    (filter : K × V → Bool) :
    ∃ t d l, RBSpec.runImpl cmp h = some (t, d) ∧ iterate t = some l ∧
      ((l.filter filter).length % 2 = 1 → (l.filter filter).length ≠ 1 →
        ∃ t', RB.copy cmp filter t = some t' ∧ iterate t' = some (l.filter filter).dropLast ∧
          (l.filter filter).dropLast ≠ l.filter filter) := by
  obtain ⟨t, d, e, H⟩ := run_spec hc h
  refine ⟨t, d, inorder t.root, e, iterate_spec H.good, ?_⟩
  intro h1 h2
  have hroot : t.root ≠ .nil := by intro hr; rw [hr] at h1; simp [inorder] at h1
  obtain ⟨t', e', g', hi⟩ := copy_spec hc H.good filter hroot
  rw [if_pos ⟨h1, h2⟩] at hi
  refine ⟨t', e', by rw [iterate_spec g', hi], ?_⟩
  intro he
  have := congrArg List.length he
  simp only [List.length_dropLast] at this
  omega

/-- **C13, refuted part**. Copying an empty tree writes outside a zero-sized allocation. -/
theorem C13_copy_of_empty_is_undefined {K V : Type} (cmp : K → K → Int) (hc : TotalPreorder cmp) (h : List (Op K V))
    (filter : K × V → Bool) (hempty : ∀ k, lookup (keyEq cmp) h k = none) :
    ∃ t d, RBSpec.runImpl cmp h = some (t, d) ∧ RB.copy cmp filter t = none := by
  obtain ⟨t, d, e, H⟩ := run_spec hc h
  refine ⟨t, d, e, ?_⟩
  cases hr : t.root with
  | nil => simp [RB.copy, hr]
  | node a b p c =>
    have hnd := inc_noDup hc H.good.inc
    have := (CMap.find_iff (F_lawful hc) hnd p.1 p).mpr ⟨by rw [hr]; simp [inorder], by
      simp only [F, keyEq, decide_eq_true_eq]; exact hc.refl _⟩
    rw [H.look, hempty] at this; cases this

/-- **C57**. `RBTreeEqual` on two reachable trees answers true exactly when they have the same number of pairs and, in
iteration order, pairwise equal keys and values. -/
theorem C57_equal_iff_same_contents {K V : Type} (cmp : K → K → Int) (vcmp : V → V → Int) (hc : TotalPreorder cmp)
    (ha hb : List (Op K V)) :
    ∃ ta da tb db la lb r, RBSpec.runImpl cmp ha = some (ta, da) ∧ RBSpec.runImpl cmp hb = some (tb, db) ∧
      iterate ta = some la ∧ iterate tb = some lb ∧ RB.equal cmp vcmp ta tb = some r ∧
      (r = true ↔ la.length = lb.length ∧
        ∀ (i : Nat) (hi : i < la.length) (hj : i < lb.length), cmp la[i].1 lb[i].1 = 0 ∧ vcmp la[i].2 lb[i].2 = 0) := by
  obtain ⟨ta, da, ea, Ha⟩ := run_spec hc ha
  obtain ⟨tb, db, eb, Hb⟩ := run_spec hc hb
  refine ⟨ta, da, tb, db, inorder ta.root, inorder tb.root,
    if ta.size = tb.size then equalLoop cmp vcmp (inorder ta.root) (inorder tb.root) else false, ea, eb, iterate_spec Ha.good, iterate_spec Hb.good, ?_, ?_⟩
  · unfold RB.equal
    by_cases hs : ta.size = tb.size
    · rw [if_neg (by simp [hs]), if_pos hs, iterate_spec Ha.good, iterate_spec Hb.good]; rfl
    · rw [if_pos hs, if_neg hs]
  · by_cases hs : ta.size = tb.size
    · rw [if_pos hs]
      have hl : (inorder ta.root).length = (inorder tb.root).length := by rw [← Ha.good.size, ← Hb.good.size, hs]
      rw [equalLoop_spec cmp vcmp _ _ hl]
      constructor
      · intro hz
        refine ⟨hl, fun i hi hj => ?_⟩
        have hz' := hz ((inorder ta.root)[i], (inorder tb.root)[i]) (by
          rw [List.mem_iff_getElem]
          exact ⟨i, by simp; omega, by simp⟩)
        exact hz'
      · rintro ⟨-, hz⟩ x hx
        obtain ⟨i, hi, rfl⟩ := List.mem_iff_getElem.mp hx
        simp only [List.length_zip] at hi
        simp only [List.getElem_zip]
        exact hz i (by omega) (by omega)
    · have hl : (inorder ta.root).length ≠ (inorder tb.root).length := by rw [← Ha.good.size, ← Hb.good.size]; exact hs
      simp [hs, hl]

/-- **C58**. After every history the pairs destroyed so far together with those still reachable by iteration are exactly the
pairs handed to `RBTreePut` (as multisets): nothing is destroyed twice, leaked, or destroyed while reachable; and the next call
destroys exactly the pair stored under an equal key (put, remove) or all live pairs (clear). The destructor calls that
`RBTreeClear` makes on the NULL payload of the sentinel are not counted. -/
theorem C58_tree_destroys_exactly_once {K V : Type} (cmp : K → K → Int) (hc : TotalPreorder cmp) (h : List (Op K V)) :
    ∃ t d l, RBSpec.runImpl cmp h = some (t, d) ∧ iterate t = some l ∧ (d ++ l).Perm (insertedPairs h) ∧
      ∀ op, ∃ t' b d', RBSpec.stepImpl cmp t op = some (t', b, d') ∧ d'.Perm (expectedDestroyed (keyEq cmp) h l op) := by
  obtain ⟨t, d, e, H⟩ := run_spec hc h
  refine ⟨t, d, inorder t.root, e, iterate_spec H.good, H.bal, fun op => ?_⟩
  obtain ⟨t', d', e', hd, -⟩ := step_spec hc H op
  exact ⟨t', _, d', e', hd⟩

/-- Non-vacuity: integers compared modulo 100. -/
def demoCmp (a b : Nat) : Int := ((a % 100 : Nat) : Int) - ((b % 100 : Nat) : Int)

theorem demoCmp_total : TotalPreorder demoCmp := by
  refine ⟨?_, ?_, ?_⟩
  · intro a; simp [demoCmp]
  · intro a b; simp only [demoCmp]; omega
  · intro a b c h1 h2; simp only [demoCmp] at *; omega

-- Seven increasing keys, then key 103 replaces 3 and 2 is removed; 5 left (odd), so a copy loses the last.
example : (RBSpec.runImpl demoCmp (.remove 2 :: .insert 103 "x" :: (List.range 6).map (fun i => Op.insert i "v"))).bind
    (fun r => (iterate r.1).map (fun l => (l.map (·.1), r.2.map (·.1)))) = some ([0, 1, 103, 4, 5], [3, 2]) := by decide +kernel

example : (RBSpec.runImpl demoCmp (.remove 2 :: .insert 103 "x" :: (List.range 6).map (fun i => Op.insert i "v"))).bind
    (fun r => (RB.copy demoCmp (fun _ => true) r.1).bind fun c => (iterate c).map (fun l => l.map (·.1))) =
    some [0, 1, 103, 4] := by decide +kernel

-- A filter selecting an even number of pairs: the hypotheses of C13_copy_partial are met.
example : (RBSpec.runImpl demoCmp ((List.range 6).map (fun i => Op.insert i "v"))).bind
    (fun r => (RB.copy demoCmp (fun p => p.1 != 3 && p.1 != 1) r.1).bind fun c => (iterate c).map (fun l => l.map (·.1))) =
    some [0, 2, 4, 5] := by decide +kernel
