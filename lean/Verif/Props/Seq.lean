import Verif.Lemmas.SeqSort
/-! # C04, C05, C06: sequence.c

`Seqn.Has s xs` (well-formed object whose observable contents, read through `SeqAt`, are `xs`) unfolds to
`SeqSpec.WellFormed s ∧ SeqSpec.Contents s xs`. -/
open Seqn SeqSpec

/-- The API calls of `sequence.c` that change one sequence, in a history. -/
inductive SeqOp (P : Type)
  | append (x : P)
  | appendOnce (x : P)
  | set (i : Nat) (x : P)
  | remove (i : Nat)
  | removeRange (a b : Nat)
  | softRemoveRange (a b : Nat)
  | softRemove (i : Nat)
  | clear
  | reverse
  | removeNulls
  | splitKeep (i : Nat)
  | appendList (m : List P)

/-- Specification: the effect of a call on the list of elements, and the elements handed to the destructor. `none` when the
caller violates the documented precondition (an assertion in the code). -/
def seqSpecStep {P : Type} (cmp : P → P → Int) (isNull : P → Bool) (l : List P) : SeqOp P → Option (List P × List P)
  | .append x => some (l ++ [x], [])
  | .appendOnce x => if l.any fun y => decide (cmp x y = 0) then some (l, [x]) else some (l ++ [x], [])
  | .set i x => if h : i < l.length then some (l.set i x, [l[i]]) else none
  | .remove i => if h : i < l.length then some (l.eraseIdx i, [l[i]]) else none
  | .removeRange a b =>
    if b < l.length ∧ a ≤ b then some (l.take a ++ l.drop (b + 1), (l.drop a).take (b + 1 - a)) else none
  | .softRemoveRange a b => if b < l.length ∧ a ≤ b then some (l.take a ++ l.drop (b + 1), []) else none
  | .softRemove i => if i < l.length then some (l.eraseIdx i, []) else none
  | .clear => some ([], l)
  | .reverse => some (l.reverse, [])
  | .removeNulls => some (l.filter fun x => !isNull x, [])
  | .splitKeep i => if i ≤ l.length then some (l.take i, []) else none
  | .appendList m => some (l ++ m, [])

/-- Specification of a history; the second component collects what was destroyed, in order. -/
def seqSpecRun {P : Type} (cmp : P → P → Int) (isNull : P → Bool) : List P → List (SeqOp P) → Option (List P × List P)
  | l, [] => some (l, [])
  | l, op :: ops => do
    let (l, d) ← seqSpecStep cmp isNull l op
    let (l, ds) ← seqSpecRun cmp isNull l ops
    some (l, d ++ ds)

/-- Build a sequence from a list with `SeqNew(0)` and `SeqAppend` (used as the argument of `SeqAppendSeq`). -/
def seqOfList {P : Type} : Seqn.Seq P → List P → Option (Seqn.Seq P)
  | s, [] => some s
  | s, x :: xs => do seqOfList (← Seqn.append s x) xs

/-- The same call on the model. -/
def seqStep {P : Type} (cmp : P → P → Int) (isNull : P → Bool) (s : Seqn.Seq P) :
    SeqOp P → Option (Seqn.Seq P × List P)
  | .append x => (append s x).map (·, [])
  | .appendOnce x => appendOnce cmp s x
  | .set i x => Seqn.set s i x
  | .remove i => remove s i
  | .removeRange a b => removeRange s a b
  | .softRemoveRange a b => (softRemoveRange s a b).map (·, [])
  | .softRemove i => (softRemove s i).map (·, [])
  | .clear => clear s
  | .reverse => (reverse s).map (·, [])
  | .removeNulls => (removeNulls isNull s).map (·, [])
  | .splitKeep i => (split s i).map fun r => (r.1, [])
  | .appendList m => do
    let items ← seqOfList (new 0 false) m
    (appendSeq s items).map (·, [])

/-- A history on the model. -/
def seqRun {P : Type} (cmp : P → P → Int) (isNull : P → Bool) :
    Seqn.Seq P → List (SeqOp P) → Option (Seqn.Seq P × List P)
  | s, [] => some (s, [])
  | s, op :: ops => do
    let (s, d) ← seqStep cmp isNull s op
    let (s, ds) ← seqRun cmp isNull s ops
    some (s, d ++ ds)

theorem seqOfList_spec {P : Type} : ∀ (m : List P) (s : Seqn.Seq P) (l : List P), Has s l →
    ∃ s', seqOfList s m = some s' ∧ Has s' (l ++ m) := by
  intro m
  induction m with
  | nil => intro s l h; exact ⟨s, rfl, by simpa using h⟩
  | cons x m ih =>
    intro s l h
    obtain ⟨s1, e1, r1, _⟩ := append_spec h x
    obtain ⟨s2, e2, r2⟩ := ih s1 _ r1
    exact ⟨s2, by simp [seqOfList, e1, e2], by simpa using r2⟩

/-- One call meets its specification (a sequence with a destructor). -/
theorem seqStep_spec {P : Type} (cmp : P → P → Int) (isNull : P → Bool) {s : Seqn.Seq P} {l : List P} (h : Has s l)
    (hd : s.hasDestroy = true) (op : SeqOp P) {l' d : List P} (he : seqSpecStep cmp isNull l op = some (l', d)) :
    ∃ s', seqStep cmp isNull s op = some (s', d) ∧ Has s' l' ∧ s'.hasDestroy = true := by
  cases op with
  | append x =>
    obtain ⟨s', e, r, q⟩ := append_spec h x
    simp only [seqSpecStep, Option.some.injEq, Prod.mk.injEq] at he
    obtain ⟨rfl, rfl⟩ := he
    exact ⟨s', by simp [seqStep, e], r, by rw [q, hd]⟩
  | appendOnce x =>
    obtain ⟨s', e, r, q⟩ := appendOnce_spec cmp h x
    simp only [seqSpecStep] at he
    split at he <;> rename_i ha <;> simp only [Option.some.injEq, Prod.mk.injEq] at he <;> obtain ⟨rfl, rfl⟩ := he
    · refine ⟨s', ?_, ?_, by rw [q, hd]⟩
      · simp only [seqStep, e, ha, hd]; simp
      · simpa only [ha, if_true] using r
    · refine ⟨s', ?_, ?_, by rw [q, hd]⟩
      · simp only [seqStep, e, ha, hd]; simp
      · simpa only [ha, if_false, Bool.false_eq_true] using r
  | set i x =>
    simp only [seqSpecStep] at he
    split at he
    · rename_i hi
      simp only [Option.some.injEq, Prod.mk.injEq] at he
      obtain ⟨rfl, rfl⟩ := he
      obtain ⟨s', e, r, q⟩ := set_spec h i hi x
      exact ⟨s', by simp [seqStep, e, hd], r, by rw [q, hd]⟩
    · cases he
  | remove i =>
    simp only [seqSpecStep] at he
    split at he
    · rename_i hi
      simp only [Option.some.injEq, Prod.mk.injEq] at he
      obtain ⟨rfl, rfl⟩ := he
      obtain ⟨s', e, r, q⟩ := removeRange_spec h i i hi (Nat.le_refl _)
      refine ⟨s', ?_, ?_, by rw [q, hd]⟩
      · simp only [seqStep, remove, e, hd, if_true]
        rw [show i + 1 - i = 1 by omega, List.drop_eq_getElem_cons hi]; rfl
      · rw [List.eraseIdx_eq_take_drop_succ]; exact r
    · cases he
  | removeRange a b =>
    simp only [seqSpecStep] at he
    split at he
    · rename_i hi
      simp only [Option.some.injEq, Prod.mk.injEq] at he
      obtain ⟨rfl, rfl⟩ := he
      obtain ⟨s', e, r, q⟩ := removeRange_spec h a b hi.1 hi.2
      exact ⟨s', by simp [seqStep, e, hd], r, by rw [q, hd]⟩
    · cases he
  | softRemoveRange a b =>
    simp only [seqSpecStep] at he
    split at he
    · rename_i hi
      simp only [Option.some.injEq, Prod.mk.injEq] at he
      obtain ⟨rfl, rfl⟩ := he
      obtain ⟨s', e, r, q⟩ := softRemoveRange_spec h a b hi.1 hi.2
      exact ⟨s', by simp [seqStep, e], r, by rw [q, hd]⟩
    · cases he
  | softRemove i =>
    simp only [seqSpecStep] at he
    split at he
    · rename_i hi
      simp only [Option.some.injEq, Prod.mk.injEq] at he
      obtain ⟨rfl, rfl⟩ := he
      obtain ⟨s', e, r, q⟩ := softRemoveRange_spec h i i hi (Nat.le_refl _)
      exact ⟨s', by simp [seqStep, softRemove, e], by rw [List.eraseIdx_eq_take_drop_succ]; exact r, by rw [q, hd]⟩
    · cases he
  | clear =>
    obtain ⟨s', e, r, q⟩ := clear_spec h
    simp only [seqSpecStep, Option.some.injEq, Prod.mk.injEq] at he
    obtain ⟨rfl, rfl⟩ := he
    exact ⟨s', by simp [seqStep, e, hd], r, by rw [q, hd]⟩
  | reverse =>
    obtain ⟨s', e, r, q⟩ := reverse_spec h
    simp only [seqSpecStep, Option.some.injEq, Prod.mk.injEq] at he
    obtain ⟨rfl, rfl⟩ := he
    exact ⟨s', by simp [seqStep, e], r, by rw [q, hd]⟩
  | removeNulls =>
    obtain ⟨s', e, r, q⟩ := removeNulls_spec isNull h
    simp only [seqSpecStep, Option.some.injEq, Prod.mk.injEq] at he
    obtain ⟨rfl, rfl⟩ := he
    exact ⟨s', by simp [seqStep, e], r, by rw [q, hd]⟩
  | splitKeep i =>
    simp only [seqSpecStep] at he
    split at he
    · rename_i hi
      simp only [Option.some.injEq, Prod.mk.injEq] at he
      obtain ⟨rfl, rfl⟩ := he
      obtain ⟨s', t, e, r, _, q⟩ := split_spec' h i hi
      exact ⟨s', by simp [seqStep, e], r, by rw [q, hd]⟩
    · cases he
  | appendList m =>
    simp only [seqSpecStep, Option.some.injEq, Prod.mk.injEq] at he
    obtain ⟨rfl, rfl⟩ := he
    obtain ⟨items, e1, r1⟩ := seqOfList_spec m _ _ (has_new (P := P) 0 false)
    simp only [List.nil_append] at r1
    obtain ⟨s', e, r, q⟩ := appendSeqLoop_spec r1 m.length 0 s l h (by omega)
    refine ⟨s', ?_, by simpa using r, by rw [q, hd]⟩
    simp only [seqStep, e1, appendSeq, r1.2.1, e, Option.bind_eq_bind, Option.bind_some, Option.map_some]

/-- **C04**. For every initial capacity and every history of API calls that respects the documented preconditions, the
model never leaves its memory, the elements are those of the list specification, exactly the specified elements were handed
to the destructor in the specified order, and `SeqDestroy` then hands over exactly the remaining ones. -/
theorem C04_seq_is_a_list {P : Type} (cmp : P → P → Int) (isNull : P → Bool) (cap : Nat) (ops : List (SeqOp P))
    (l destroyed : List P) (hspec : seqSpecRun cmp isNull [] ops = some (l, destroyed)) :
    ∃ s, seqRun cmp isNull (new cap true) ops = some (s, destroyed) ∧ WellFormed s ∧ Contents s l ∧
      Seqn.destroy s = some l := by
  have key : ∀ (ops : List (SeqOp P)) (s : Seqn.Seq P) (l0 l d : List P), Has s l0 → s.hasDestroy = true →
      seqSpecRun cmp isNull l0 ops = some (l, d) →
      ∃ s', seqRun cmp isNull s ops = some (s', d) ∧ Has s' l ∧ s'.hasDestroy = true := by
    intro ops
    induction ops with
    | nil =>
      intro s l0 l d h hd he
      simp only [seqSpecRun, Option.some.injEq, Prod.mk.injEq] at he
      obtain ⟨rfl, rfl⟩ := he
      exact ⟨s, rfl, h, hd⟩
    | cons op ops ih =>
      intro s l0 l d h hd he
      simp only [seqSpecRun, Option.bind_eq_bind, Option.bind_eq_some_iff] at he
      obtain ⟨⟨l1, d1⟩, e1, ⟨l2, d2⟩, e2, e3⟩ := he
      simp only [Option.some.injEq, Prod.mk.injEq] at e3
      obtain ⟨rfl, rfl⟩ := e3
      obtain ⟨s1, f1, r1, q1⟩ := seqStep_spec cmp isNull h hd op e1
      obtain ⟨s2, f2, r2, q2⟩ := ih s1 l1 l2 d2 r1 q1 e2
      exact ⟨s2, by simp [seqRun, f1, f2], r2, q2⟩
  obtain ⟨s, e, r, q⟩ := key ops (new cap true) [] l destroyed (has_new cap true) rfl hspec
  exact ⟨s, e, r.1, r.2, by rw [destroy_spec r, q]; rfl⟩

/-- **C04** (lookups). `SeqIndexOf` returns the index of the first equal element, or -1; `SeqLookup` returns that element. -/
theorem C04_lookup_finds_first {P : Type} (cmp : P → P → Int) (s : Seqn.Seq P) (l : List P) (hw : WellFormed s)
    (hc : Contents s l) (key : P) :
    lookup cmp s key = some (l.find? fun x => decide (cmp key x = 0)) ∧
    indexOf cmp s key = some (match l.findIdx? fun x => decide (cmp key x = 0) with
      | none => -1 | some i => (i : Int)) :=
  ⟨lookup_spec cmp key ⟨hw, hc⟩, indexOf_spec cmp key ⟨hw, hc⟩⟩

/-- **C04** (ranges). `SeqGetRange` returns NULL exactly for an invalid range, otherwise a new sequence with the slice;
`SeqSplit` divides the elements at the index. -/
theorem C04_getRange_and_split {P : Type} (s : Seqn.Seq P) (l : List P) (hw : WellFormed s) (hc : Contents s l) :
    (∀ a b, (b < l.length ∧ a ≤ b → ∃ t, getRange s a b = some (some t) ∧ WellFormed t ∧
          Contents t ((l.drop a).take (b + 1 - a))) ∧
        (¬(b < l.length ∧ a ≤ b) → getRange s a b = some none)) ∧
    (∀ i, i ≤ l.length → ∃ s' t, split s i = some (s', t) ∧ WellFormed s' ∧ WellFormed t ∧
        Contents s' (l.take i) ∧ Contents t (l.drop i)) := by
  refine ⟨fun a b => ?_, fun i hi => ?_⟩
  · rcases getRange_spec ⟨hw, hc⟩ a b with ⟨h1, h2, t, e, r, _⟩ | ⟨h1, e⟩
    · exact ⟨fun _ => ⟨t, e, r.1, r.2⟩, fun hn => absurd ⟨h1, h2⟩ hn⟩
    · exact ⟨fun hh => absurd hh h1, fun _ => e⟩
  · obtain ⟨s', t, e, r1, r2⟩ := split_spec ⟨hw, hc⟩ i hi
    exact ⟨s', t, e, r1.1, r2.1, r1.2, r2.2⟩

/-- **C04** (shuffle). Whatever the random generator returns, `SeqShuffle` stays in bounds and permutes the elements. -/
theorem C04_shuffle_permutes {P : Type} (rnd : Nat → Nat) (s : Seqn.Seq P) (l : List P) (hw : WellFormed s)
    (hc : Contents s l) :
    ∃ s' l', shuffle rnd s = some s' ∧ WellFormed s' ∧ Contents s' l' ∧ l'.Perm l := by
  obtain ⟨s', l', e, r, p⟩ := shuffle_spec rnd ⟨hw, hc⟩
  exact ⟨s', l', e, r.1, r.2, p⟩

/-- **C05**. `SeqSort` terminates without leaving the array, and its result is a sorted permutation of the input, for every
comparator that describes a total preorder. -/
theorem C05_sort_sorts {P : Type} (cmp : P → P → Int) (hcmp : TotalPreorder cmp) (s : Seqn.Seq P) (l : List P)
    (hw : WellFormed s) (hc : Contents s l) :
    ∃ s' l', sort cmp s = some s' ∧ WellFormed s' ∧ Contents s' l' ∧ l'.Perm l ∧ Sorted cmp l' := by
  obtain ⟨s', l', e, r, p, so, _⟩ := sort_spec hcmp ⟨hw, hc⟩
  exact ⟨s', l', e, r.1, r.2, p, so⟩

/-- **C05** (soft sort). `SeqSoftSort` returns a new sorted sequence. -/
theorem C05_softSort_sorts {P : Type} (cmp : P → P → Int) (hcmp : TotalPreorder cmp) (s : Seqn.Seq P) (l : List P)
    (hw : WellFormed s) (hc : Contents s l) :
    ∃ s' l', softSort cmp s = some s' ∧ WellFormed s' ∧ Contents s' l' ∧ l'.Perm l ∧ Sorted cmp l' := by
  have hl := hc.1
  unfold softSort
  by_cases h0 : s.length = 0
  · have : l = [] := List.eq_nil_of_length_eq_zero (by omega)
    subst this
    have := has_new (P := P) 0 false
    exact ⟨_, [], by rw [if_pos h0], this.1, this.2, .refl _, by simp [Sorted]⟩
  · rw [if_neg h0]
    rcases getRange_spec ⟨hw, hc⟩ 0 (s.length - 1) with ⟨h1, h2, t, e, r, _⟩ | ⟨h1, e⟩
    · have hr : Has t l := by
        rw [List.drop_zero, List.take_of_length_le (by omega)] at r; exact r
      obtain ⟨s', l', e', r', p, so, _⟩ := sort_spec hcmp hr
      exact ⟨s', l', by simp [e, e'], r'.1, r'.2, p, so⟩
    · exact absurd ⟨by omega, by omega⟩ h1

/-- **C06**. On a sorted sequence `SeqBinaryIndexOf` returns an index holding an equal element if there is one, and -1 iff
there is none; `SeqBinaryLookup` returns an equal element iff there is one. -/
theorem C06_binary_search_exact {P : Type} (cmp : P → P → Int) (hcmp : TotalPreorder cmp) (s : Seqn.Seq P) (l : List P)
    (hw : WellFormed s) (hc : Contents s l) (hsorted : Sorted cmp l) (key : P) :
    ((∃ x ∈ l, cmp key x = 0) → ∃ i x, binaryIndexOf cmp s key = some (Int.ofNat i) ∧ l[i]? = some x ∧ cmp key x = 0 ∧
        binaryLookup cmp s key = some (some x)) ∧
    ((∀ x ∈ l, cmp key x ≠ 0) → binaryIndexOf cmp s key = some (-1) ∧ binaryLookup cmp s key = some none) := by
  obtain ⟨rest, hx, dat, cap, pos, len⟩ := rep_of hw hc
  have hb := binLoop_spec (rest := rest) hcmp hsorted key (l.length + 1) 0 l.length (by omega) (by omega) (by omega)
    (by intro k x h; omega) (by
      intro k x h hx
      obtain ⟨hk, _⟩ := List.getElem?_eq_some_iff.mp hx
      omega)
  have hbi : binaryIndexOf cmp s key =
      if l.length = 0 then some (-1) else binLoop cmp key (l.map some ++ rest) (l.length + 1) 0 l.length := by
    rw [binaryIndexOf, len, dat]
  refine ⟨fun ⟨x, hxl, hk⟩ => ?_, fun hn => ?_⟩
  · have h0 : l.length ≠ 0 := by intro h; simp at h; subst h; simp at hxl
    rcases hb with ⟨i, y, e, hy, hy0⟩ | ⟨_, hno⟩
    · obtain ⟨hil, hiy⟩ := List.getElem?_eq_some_iff.mp hy
      have e2 : binaryIndexOf cmp s key = some (Int.ofNat i) := by rw [hbi, if_neg h0, e]
      refine ⟨i, y, e2, hy, hy0, ?_⟩
      simp only [binaryLookup, e2, Option.bind_eq_bind, Option.bind_some]
      rw [if_neg (by simp), dat, show (Int.ofNat i).toNat = i from rfl, get_app hil, hiy]; rfl
    · exact absurd hk (hno x hxl)
  · have e2 : binaryIndexOf cmp s key = some (-1) := by
      rw [hbi]
      split
      · rfl
      · rcases hb with ⟨i, y, e, hy, hy0⟩ | ⟨e, _⟩
        · exact absurd hy0 (hn y (List.mem_of_getElem? hy))
        · exact e
    exact ⟨e2, by simp [binaryLookup, e2]⟩

/-! Non-vacuity: integer comparison is a total preorder, and concrete sequences exist. -/

/-- Comparison of integers, the simplest comparator. -/
def intCmp (a b : Int) : Int := a - b

example : TotalPreorder intCmp := ⟨fun a => by simp [intCmp], fun a b => by simp only [intCmp]; omega, fun a b c => by
  simp only [intCmp]; omega⟩
example : (seqRun intCmp (· == 0) (new 1 true) [.append 3, .append 1, .append 2, .remove 0, .reverse]).map
    (fun r => (r.2, sort intCmp r.1 |>.map (·.data))) = some ([3], some [some 1, some 2, some 2, none]) := by rfl
example : (seqRun intCmp (· == 0) (new 1 true) [.append 3, .append 1, .append 2, .append 0, .removeNulls]).map
    (fun r => (r.1.length, sort intCmp r.1 |>.map (·.data))) = some (3, some [some 1, some 2, some 3, some 0]) := by rfl
example : seqSpecRun intCmp (· == 0) [] [.append 3, .append 1, .appendOnce 3, .removeRange 0 1] = some ([], [3, 3, 1]) := by
  rfl
example : Sorted intCmp [1, 2, 2, 5] := by simp [Sorted, intCmp]
