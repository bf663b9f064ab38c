import Verif.Lemmas.ListMut
/-! # C105 (a list's mutable iterator is a cursor that edits the sequence) -/
open CList ListSpec

/-- C105. Take any history of list calls, and a list in it that is not empty and not sharing its nodes with a copy. ListMutableIteratorGet opens an iterator on the first
element, and every history of calls on it (moving, reading, inserting before and behind, removing, and ListRemove on the list itself) that does not go on after the
list's last element was removed under it touches no freed memory and answers what the cursor of the specification answers; the list then reads back as the edited sequence, every other
list as it was, and any history of calls on the lists may follow. -/
theorem C105_cursor {V : Type} (c : Cfg V) (hcopy : c.copy = true) (eqv : V → V → Bool) (hcmp : c.compare = some eqv)
    (pre : List (Op V)) (sp : ListSpec.S V) (os : List Out) (h : ListSpec.run eqv ListSpec.init pre = some (sp, os)) :
    ∃ s, execs c St.init pre = some (s, os) ∧ ∀ l xs, sp.val l = some xs → xs ≠ [] → Unshared s l →
      ∃ it, ListMutableIteratorGet s l false = some (some it) ∧ ∀ ops r, mRun eqv xs (some 0) ops = some r →
        ∃ s' it', mExecs c s it ops = some (s', it', r.2.2) ∧ contents s' l = some r.1 ∧ ListCount s' l = some r.1.length ∧
          (∀ l' xs', l' ≠ l → sp.val l' = some xs' → contents s' l' = some xs') ∧
          ∀ post sp2 os2, ListSpec.run eqv (sp.set l (some r.1)) post = some (sp2, os2) →
            ∃ s2, execs c s' post = some (s2, os2) ∧ ∀ l' xs', sp2.val l' = some xs' → contents s2 l' = some xs' := by
  obtain ⟨s, g, h1, inv, _⟩ := inv_execs c hcopy eqv hcmp pre inv_init h
  refine ⟨s, h1, fun l xs hx hne hun => ?_⟩
  obtain ⟨L, u, hl, hus⟩ := unshared_us inv hun
  obtain ⟨_, hlf, hcnt, hdl, hv⟩ := inv.lists l L hl
  have hxs : (g L.refCount).es.map (·.2.2) = xs := by rw [hv] at hx; exact Option.some.inj hx
  have hpos : 0 < (g L.refCount).es.length := by
    cases hh : (g L.refCount).es with
    | nil => rw [hh] at hxs; exact absurd hxs.symm hne
    | cons _ _ => simp
  have hf := first_ptr inv hl
  have hf2 : L.first = some ((g L.refCount).es[0]).1 := by rw [← hf, List.getElem?_eq_getElem hpos]; rfl
  refine ⟨⟨some ((g L.refCount).es[0]).1, l, true⟩, by simp [ListMutableIteratorGet, hl, hf2], fun ops r hr => ?_⟩
  have hat : Post s g ⟨some ((g L.refCount).es[0]).1, l, true⟩ l (some 0) := ⟨L, u, hl, hus, hpos, by rw [hf, hf2]⟩
  obtain ⟨s', it', g', e1, e2, _⟩ := mRun_ok c eqv hcmp ops inv hat hx hr
  have hval : (sp.set l (some r.1)).val l = some r.1 := by simp [ListSpec.S.set]
  refine ⟨s', it', e1, (contents_ok e2 hval).1, (contents_ok e2 hval).2, fun l' xs' hne hx' => ?_, fun post sp2 os2 hp => ?_⟩
  · exact (contents_ok e2 (show (sp.set l (some r.1)).val l' = some xs' by simp [ListSpec.S.set, hne, hx'])).1
  · obtain ⟨s2, g2, k1, k2, _⟩ := inv_execs c hcopy eqv hcmp post e2 hp
    exact ⟨s2, k1, fun l' xs' hx' => (contents_ok k2 hx').1⟩

/-- Non-vacuity: two lists, one copied and then written to; a long edit of it. -/
example : let c : Cfg Nat := { compare := some (fun a b => decide (a = b)), copy := true, destroy := true }
    ∃ s sp os, ListSpec.run (fun a b => decide (a = b)) (ListSpec.init : ListSpec.S Nat) [.new, .append 0 5, .copy 0, .append 0 6] = some (sp, os) ∧
      execs c St.init [.new, .append 0 5, .copy 0, .append 0 6] = some (s, os) ∧ sp.val 0 = some [5, 6] ∧ Unshared s 0 := by
  refine ⟨_, _, _, rfl, rfl, by decide, _, _, rfl, rfl, by decide⟩
example : (mRun (fun a b => decide (a = b)) [5, 6] (some 0)
    [.prepend 4, .append 9, .move .next, .move .data, .remove, .move .data, .remove, .listRemove 4, .move .data, .remove, .listRemove 5]).map (fun r => (r.1, r.2.1)) =
    some (([], none) : List Nat × Option Nat) := by decide

theorem detach_unshared {V : Type} (c : Cfg V) (s s' : St V) (l : Nat) (h : ListDetach c s l = some s') : Unshared s' l := by
  simp only [ListDetach, Option.bind_eq_bind] at h
  cases hl : s.lists l with
  | none => simp [hl] at h
  | some L =>
    cases hrc : s.rcs L.refCount with
    | none => simp [hl, hrc] at h
    | some rc =>
      simp only [hl, hrc, Option.bind_some] at h
      cases hsh : RefCountIsShared rc with
      | false =>
        simp only [hsh, Bool.false_eq_true, if_false, Option.some.injEq] at h
        subst h
        exact ⟨L, rc, hl, hrc, hsh⟩
      | true =>
        simp only [hsh, if_true] at h
        cases hd : detachLoop c (s.nodes.fresh + 1) s.nodes s.pays L.list none none with
        | none => simp [hd] at h
        | some p =>
          obtain ⟨n, p, f, t⟩ := p
          simp only [hd, Option.bind_some] at h
          cases hr : RefCountDetach s.users rc l with
          | none => simp [hr] at h
          | some d =>
            cases d with
            | programmingError => simp [hr] at h
            | ok users rc' =>
              simp only [hr, Option.bind_some, newRefCount, RefCountAttach, RefCountNew, Option.bind_eq_bind, Option.some.injEq] at h
              subst h
              exact ⟨_, _, if_pos rfl, if_pos rfl, by simp [RefCountIsShared]⟩

/-- A list that was written to is not shared: ListAppend and ListPrepend detach it. -/
theorem C105_written_lists_are_unshared {V : Type} (c : Cfg V) (s s' : St V) (l : Nat) (p : Pay) (h : ListAppend c s l p = some s' ∨ ListPrepend c s l p = some s') : Unshared s' l := by
  rcases h with h | h
  all_goals
    simp only [ListAppend, ListPrepend, Option.bind_eq_bind] at h
    cases hd : ListDetach c s l with
    | none => simp [hd] at h
    | some s1 =>
      obtain ⟨L, rc, h1, h2, h3⟩ := detach_unshared c s s1 l hd
      simp only [hd, Option.bind_some, h1] at h
      split at h
      · simp only [Option.bind_eq_some_iff] at h
        obtain ⟨_, _, _, _, h⟩ := h
        cases h
        exact ⟨_, rc, if_pos rfl, h2, h3⟩
      · cases h
        exact ⟨_, rc, if_pos rfl, h2, h3⟩

/-- There is no iterator on an empty list, and no second one on a list that has one; an iterator that lost its list's last element refuses to move, to read and to edit. -/
theorem C105_refused {V : Type} (c : Cfg V) (s : St V) (l : Nat) (L : Lst) (hl : s.lists l = some L) (it : MIter) (hv : it.valid = false) (p : Pay) :
    ListMutableIteratorGet s l true = some none ∧ (L.first = none → ListMutableIteratorGet s l false = some none) ∧
    mFirst s it = some (it, false) ∧ mLast s it = some (it, false) ∧ mNext s it = some (it, false) ∧ mPrevious s it = some (it, false) ∧ mData s it = some none ∧
    mRemove c s it = some (s, it, false) ∧ mPrepend c s it p = some (s, false) ∧ mAppend c s it p = some (s, false) := by
  simp [ListMutableIteratorGet, hl, mFirst, mLast, mNext, mPrevious, mData, mRemove, mPrepend, mAppend, hv]
  intro h; simp [h]

/-- ... but ListMutableIteratorHasNext and HasPrevious do not look whether the iterator is valid and read the freed node. -/
theorem C105_has_next_reads_freed_node :
    let c : Cfg Nat := { compare := some (fun a b => decide (a = b)), copy := true, destroy := true }
    ∃ s it s' it', execs c St.init [.new, .append 0 5] = some (s, [.handle 0, .result 0]) ∧ ListMutableIteratorGet s 0 false = some (some it) ∧
      mExecs c s it [.listRemove 5] = some (s', it', [.flag true]) ∧ (mNext s' it').map (·.2) = some false ∧ (mHasNext s' it').isNone = true ∧ (mHasPrevious s' it').isNone = true := by
  refine ⟨_, _, _, _, rfl, rfl, rfl, rfl, rfl, rfl⟩

/-- On a list that shares its nodes with a copy the iterator is broken: the first edit gives the list new nodes, but the iterator stays on the old ones. Removing
through it frees the copy's first node: the copy can not be read any more. -/
theorem C105_shared_list_destroys_the_copy :
    let c : Cfg Nat := { compare := some (fun a b => decide (a = b)), copy := true, destroy := true }
    ∃ s it s' it', execs c St.init [.new, .append 0 5, .append 0 6, .copy 0] = some (s, [.handle 0, .result 0, .result 0, .handle 1]) ∧
      contents s 1 = some [5, 6] ∧ ListMutableIteratorGet s 0 false = some (some it) ∧
      mExecs c s it [.remove] = some (s', it', [.flag true]) ∧ (contents s' 1).isNone = true := by
  refine ⟨_, _, _, _, rfl, rfl, rfl, rfl, rfl⟩

/-- Inserting through it puts the new element in front of the copy's nodes, which the list then borrows without being counted as their user: destroying the copy leaves the list on freed memory. -/
theorem C105_shared_list_borrows_the_copys_nodes :
    let c : Cfg Nat := { compare := some (fun a b => decide (a = b)), copy := true, destroy := true }
    ∃ s it s' it' s2, execs c St.init [.new, .append 0 5, .append 0 6, .copy 0] = some (s, [.handle 0, .result 0, .result 0, .handle 1]) ∧
      ListMutableIteratorGet s 0 false = some (some it) ∧ mExecs c s it [.prepend 4] = some (s', it', [.flag true]) ∧ contents s' 0 = some [4, 5, 6] ∧
      execs c s' [.destroy 1] = some (s2, [.result 0]) ∧ (contents s2 0).isNone = true := by
  refine ⟨_, _, _, _, _, rfl, rfl, rfl, rfl, rfl, rfl⟩
