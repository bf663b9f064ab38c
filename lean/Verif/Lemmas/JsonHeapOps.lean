import Verif.Lemmas.JsonHeap
/-! # The operations on trees in a heap -/
namespace JsonHeap
open Json

/-- Rearranging blocks. -/
macro "blocks" : tactic => `(tactic| (simp only [HT.blocks, blocksL, ← Multiset.singleton_add]; abel))

theorem sub_left {A B : Blocks} : A ⊆ A + B := Multiset.subset_of_le (Multiset.le_add_right _ _)
theorem sub_right {A B : Blocks} : B ⊆ A + B := Multiset.subset_of_le (Multiset.le_add_left _ _)

theorem map_eraseIdx' {α β : Type} (f : α → β) : ∀ (l : List α) (i : Nat), (l.eraseIdx i).map f = (l.map f).eraseIdx i
  | [], _ => by simp
  | x :: xs, 0 => by simp
  | x :: xs, i + 1 => by simp [map_eraseIdx' f xs i]

theorem lookup_ok {h : Heap} {k : SPtr} {b : Bytes} (hk : getStr h k = some b) : ∀ (ks : List HT) (i : Nat) (r : Option Elem), Has h (blocksL ks) →
    Json.indexOf (elems ks) b = some i → Json.lookup b (elems ks) = some r → ∃ t, ks[i]? = some t ∧ lookup h k (ks.map HT.root) = some (some t.root) ∧ r = some t.elem := by
  intro ks
  induction ks with
  | nil => intro i r _ hi; simp [Json.indexOf, elems] at hi
  | cons t ks ih =>
    intro i r hH hi hl
    simp only [blocksL, has_add] at hH
    simp only [Json.indexOf, elems, List.findIdx?_cons, HT.elem_name] at hi
    simp only [Json.lookup, elems, HT.elem_name] at hl
    simp only [List.map_cons, lookup, hH.1.elem, Option.bind_eq_bind, Option.bind_some]
    cases hn : t.nm with
    | none => rw [hn] at hl; simp at hl
    | some p =>
      obtain ⟨q, c⟩ := p
      rw [hn] at hi hl
      simp only [Option.map_some] at hi hl ⊢
      simp only [Option.bind_some, hk, hH.1.name hn]
      by_cases hc : c = b
      · subst hc
        simp only [beq_self_eq_true, if_true, Option.some.injEq] at hi
        simp only [(cmp_zero c c).mpr rfl, if_true, Option.some.injEq] at hl ⊢
        subst hi
        exact ⟨t, by simp, rfl, hl.symm⟩
      · have h1 : ¬Str.cmpSign id b c = 0 := fun hz => hc ((cmp_zero _ _).mp hz).symm
        have h2 : (some c == some b) = false := by simpa using hc
        simp only [h1, if_false] at hl ⊢
        simp only [h2, Bool.false_eq_true, if_false, Option.map_eq_some_iff] at hi
        obtain ⟨j, hj, rfl⟩ := hi
        obtain ⟨u, e1, e2, e3⟩ := ih j r hH.2 hj hl
        exact ⟨u, by simpa using e1, e2, e3⟩

theorem kidsPtr_ok {h : Heap} {a : Nat} {nm : Option (Nat × Bytes)} {t : CType} {s : Nat} {ks : List HT} {R : Blocks} (hI : Is h ((HT.cont a nm t s ks).blocks + R)) :
    kidsPtr h a t = some s := by
  have := (hI.has sub_left).elem
  simp only [HT.root, HT.body] at this
  simp only [kidsPtr, this, Option.bind_eq_bind, Option.bind_some, if_true]

/-- The Seq first, then the children, then the rest. -/
theorem cont_focus (a : Nat) (nm : Option (Nat × Bytes)) (t : CType) (s : Nat) (ks : List HT) (R : Blocks) :
    (HT.cont a nm t s ks).blocks + R = (s, .seq (ks.map HT.root)) ::ₘ (blocksL ks + ((a, .elem (nm.map (·.1)) (.cont t s)) ::ₘ (strBlock nm + R))) := by blocks

theorem getSeq_ok {h : Heap} {s : Nat} {xs : List Nat} {R : Blocks} (hI : Is h ((s, .seq xs) ::ₘ R)) : getSeq h s = some xs := by simp only [getSeq, hI.get]

theorem seqAppend_ok {h : Heap} {s : Nat} {ks : List HT} {t : HT} {R : Blocks} (hI : Is h ((s, .seq (ks.map HT.root)) ::ₘ (blocksL ks + (t.blocks + R)))) :
    ∃ h', seqAppend h s t.root = some h' ∧ Is h' ((s, .seq ((ks ++ [t]).map HT.root)) ::ₘ (blocksL (ks ++ [t]) + R)) := by
  obtain ⟨h', e, i, _⟩ := hI.store (.seq ((ks ++ [t]).map HT.root))
  refine ⟨h', ?_, i.congr ?_⟩
  · simp only [seqAppend, getSeq_ok hI, Option.bind_eq_bind, Option.bind_some]
    rw [List.map_append] at e
    exact e
  · rw [blocksL_append]; simp only [blocksL]; congr 1; abel

theorem blocksL_split (ks : List HT) (i j : Nat) (hij : i ≤ j) : blocksL ks = blocksL ((ks.drop i).take (j - i + 1)) + blocksL (ks.take i ++ ks.drop (j + 1)) := by
  have h1 : ks = ks.take i ++ ((ks.drop i).take (j - i + 1) ++ ks.drop (j + 1)) := by
    have : ks.drop (j + 1) = (ks.drop i).drop (j - i + 1) := by rw [List.drop_drop]; congr 1; omega
    rw [this, List.take_append_drop, List.take_append_drop]
  conv_lhs => rw [h1]
  simp only [blocksL_append]
  abel

theorem seqRemoveRange_ok {h : Heap} {s : Nat} {ks : List HT} {R : Blocks} (hv : ValidL ks) (i j : Nat) (hij : i ≤ j) (hj : j < ks.length) (hI : Is h ((s, .seq (ks.map HT.root)) ::ₘ (blocksL ks + R))) :
    ∃ h', seqRemoveRange h s i j = some h' ∧ Is h' ((s, .seq ((ks.take i ++ ks.drop (j + 1)).map HT.root)) ::ₘ (blocksL (ks.take i ++ ks.drop (j + 1)) + R)) := by
  have hI2 : Is h (blocksL ((ks.drop i).take (j - i + 1)) + ((s, .seq (ks.map HT.root)) ::ₘ (blocksL (ks.take i ++ ks.drop (j + 1)) + R))) := hI.congr (by
    rw [blocksL_split ks i j hij]; simp only [← Multiset.singleton_add]; abel)
  have hv2 : ValidL ((ks.drop i).take (j - i + 1)) := by
    rw [validL_iff] at hv ⊢
    exact fun k hk => hv k (List.mem_of_mem_drop (List.mem_of_mem_take hk))
  obtain ⟨h1, e1, i1, _⟩ := foldlM_destroy_ok _ h _ hv2 hI2
  obtain ⟨h2, e2, i2, _⟩ := i1.store (.seq ((ks.take i ++ ks.drop (j + 1)).map HT.root))
  refine ⟨h2, ?_, i2⟩
  rw [List.map_take, List.map_drop] at e1
  rw [List.map_append, List.map_take, List.map_drop] at e2
  simp only [seqRemoveRange, getSeq_ok hI, Option.bind_eq_bind, Option.bind_some, List.length_map, hij, hj, and_self, if_true, e1]
  exact e2

theorem eraseIdx_eq {α : Type} (l : List α) (i : Nat) : l.take i ++ l.drop (i + 1) = l.eraseIdx i := (List.eraseIdx_eq_take_drop_succ l i).symm

theorem indexOf_lt {ks : List Elem} {b : Bytes} {i : Nat} (h : Json.indexOf ks b = some i) : i < ks.length := by
  simp only [Json.indexOf] at h
  rw [List.findIdx?_eq_some_iff_findIdx_eq] at h
  exact h.1

theorem removeKey_ok {h : Heap} {a : Nat} {nm : Option (Nat × Bytes)} {s : Nat} {ks : List HT} {R : Blocks} {k : SPtr} {b : Bytes} (hv : ValidL ks) (hk : KeyIn k b R)
    (hI : Is h ((HT.cont a nm .object s ks).blocks + R)) :
    ∃ h' ks', removeKey h a k = some h' ∧ Is h' ((HT.cont a nm .object s ks').blocks + R) ∧ ValidL ks' ∧ elems ks' = (Json.removeKey (elems ks) b).1 := by
  have hkg := (hk.mono sub_right).get hI
  have hI2 := hI
  rw [cont_focus] at hI2
  have hH : Has h (blocksL ks) := hI2.has (fun p hp => by simp [hp])
  simp only [removeKey, kidsPtr_ok hI, getSeq_ok hI2, indexOf_ok hkg ks 0 hH, Option.bind_eq_bind, Option.bind_some, Json.removeKey]
  cases hi : Json.indexOf (elems ks) b with
  | none => exact ⟨h, ks, by simp, hI, hv, by simp⟩
  | some i =>
    have hlt := indexOf_lt hi
    have hlt' : i < ks.length := by rw [elems_eq, List.length_map] at hlt; exact hlt
    obtain ⟨h', e, i'⟩ := seqRemoveRange_ok hv i i (Nat.le_refl _) hlt' hI2
    refine ⟨h', ks.eraseIdx i, by simpa using e, ?_, ?_, ?_⟩
    · rw [cont_focus]; rw [eraseIdx_eq] at i'; exact i'
    · rw [validL_iff] at hv ⊢; exact fun x hx => hv x (List.mem_of_mem_eraseIdx hx)
    · simp only [elems_eq, map_eraseIdx']

theorem setName_ok {h : Heap} {t : HT} {R : Blocks} {k : SPtr} {b : Bytes} (hv : t.Valid) (hk : KeyIn k b R) (hI : Is h (t.blocks + R)) :
    ∃ (h' : Heap) (t' : HT), setName h t.root (some k) = some h' ∧ Is h' (t'.blocks + R) ∧ t'.Valid ∧ t'.root = t.root ∧ t'.elem = t.elem.setName (some b) := by
  have hg := (hI.has sub_left).elem
  have hI2 : Is h (strBlock t.nm + ((t.root, .elem (t.nm.map (·.1)) t.body) ::ₘ (t.inner + R))) := hI.congr (by
    rw [HT.blocks_eq]; simp only [← Multiset.singleton_add]; abel)
  obtain ⟨h1, e1, i1, _⟩ := freeMaybe_ok hI2
  obtain ⟨h2, e2, i2, _⟩ := i1.store (.elem none t.body)
  have hkg : getStr h2 k = some b := (hk.mono (fun p hp => by simp [hp])).get i2
  have i3 := i2.alloc (.str b)
  have i3' : Is (alloc h2 (.str b)).2 ((t.root, .elem none t.body) ::ₘ (((alloc h2 (.str b)).1, .str b) ::ₘ (t.inner + R))) := i3.congr (Multiset.cons_swap _ _ _)
  obtain ⟨h4, e4, i4, _⟩ := i3'.store (.elem (some (alloc h2 (.str b)).1) t.body)
  refine ⟨h4, t.withName (some ((alloc h2 (.str b)).1, b)), ?_, ?_, (t.withName_valid _).mpr hv, t.withName_root _, by rw [HT.withName_elem]; rfl⟩
  · simp only [setName, hg, e1, e2, hkg, Option.bind_eq_bind, Option.bind_some]
    exact e4
  · refine i4.congr ?_
    rw [HT.blocks_eq, HT.withName_nm, HT.withName_root, HT.withName_body, HT.withName_inner]
    simp only [Option.map_some, strBlock, ← Multiset.singleton_add]; abel

theorem validL_append {xs ys : List HT} : ValidL (xs ++ ys) ↔ ValidL xs ∧ ValidL ys := by
  simp only [validL_iff, List.mem_append]
  exact ⟨fun h => ⟨fun k hk => h k (.inl hk), fun k hk => h k (.inr hk)⟩, fun h k hk => hk.elim (h.1 k) (h.2 k)⟩

theorem put_ok {h : Heap} {a : Nat} {nm : Option (Nat × Bytes)} {s : Nat} {ks : List HT} {t : HT} {R : Blocks} {k : SPtr} {b : Bytes} (hv : ValidL ks) (ht : t.Valid) (hk : KeyIn k b R)
    (hI : Is h ((HT.cont a nm .object s ks).blocks + (t.blocks + R))) :
    ∃ h' ks', put h a k t.root = some h' ∧ Is h' ((HT.cont a nm .object s ks').blocks + R) ∧ ValidL ks' ∧ elems ks' = appendElement (elems ks) b t.elem := by
  obtain ⟨h1, ks1, e1, i1, v1, l1⟩ := removeKey_ok hv (hk.mono sub_right) hI
  have i1' : Is h1 (t.blocks + ((HT.cont a nm .object s ks1).blocks + R)) := i1.congr (by abel)
  obtain ⟨h2, t2, e2, i2, v2, r2, l2⟩ := setName_ok ht (hk.mono sub_right) i1'
  have i2' : Is h2 ((HT.cont a nm .object s ks1).blocks + (t2.blocks + R)) := i2.congr (by abel)
  have hkp := kidsPtr_ok i2'
  rw [cont_focus] at i2'
  obtain ⟨h3, e3, i3⟩ := seqAppend_ok (ks := ks1) (t := t2) (R := (a, .elem (nm.map (·.1)) (.cont .object s)) ::ₘ (strBlock nm + R)) (i2'.congr (by
    simp only [← Multiset.singleton_add]; abel))
  refine ⟨h3, ks1 ++ [t2], ?_, ?_, ?_, ?_⟩
  · rw [r2] at e3
    simp only [put, e1, e2, hkp, Option.bind_eq_bind, Option.bind_some]
    exact e3
  · rw [cont_focus]; exact i3
  · rw [validL_append]; exact ⟨v1, v2, trivial⟩
  · rw [elems_eq, List.map_append, ← elems_eq, l1]
    simp only [List.map_cons, List.map_nil, l2, appendElement]

def optBlocks : Option HT → Blocks
  | none => 0
  | some t => t.blocks

theorem detachKey_ok {h : Heap} {a : Nat} {nm : Option (Nat × Bytes)} {s : Nat} {ks : List HT} {R : Blocks} {k : SPtr} {b : Bytes} (hv : ValidL ks) (hk : KeyIn k b R)
    (hI : Is h ((HT.cont a nm .object s ks).blocks + R)) {l : List Elem} {d : Option Elem} (hd : Json.detachKey (elems ks) b = some (l, d)) :
    ∃ h' ks' u, detachKey h a k = some (u.map HT.root, h') ∧ Is h' ((HT.cont a nm .object s ks').blocks + (optBlocks u + R)) ∧ ValidL ks' ∧ (∀ t, u = some t → t.Valid) ∧
      elems ks' = l ∧ u.map HT.elem = d := by
  have hkg := (hk.mono sub_right).get hI
  have hI2 := hI
  rw [cont_focus] at hI2
  have hH : Has h (blocksL ks) := hI2.has (fun p hp => by simp [hp])
  simp only [detachKey, kidsPtr_ok hI, getSeq_ok hI2, indexOf_ok hkg ks 0 hH, Option.bind_eq_bind, Option.bind_some]
  simp only [Json.detachKey] at hd
  cases hi : Json.indexOf (elems ks) b with
  | none =>
    rw [hi] at hd
    simp only [Option.some.injEq, Prod.mk.injEq] at hd
    exact ⟨h, ks, none, by simp, by simpa [optBlocks] using hI, hv, by simp, hd.1, by simpa using hd.2⟩
  | some i =>
    rw [hi] at hd
    simp only [Option.map_eq_some_iff, Prod.mk.injEq] at hd
    obtain ⟨r, hr, hl, rfl⟩ := hd
    obtain ⟨t, e1, e2, e3⟩ := lookup_ok hkg ks i r hH hi hr
    obtain ⟨hlt, e1'⟩ := List.getElem?_eq_some_iff.mp e1
    have hsplit : blocksL ks = t.blocks + blocksL (ks.eraseIdx i) := by
      have := blocksL_split ks i i (Nat.le_refl _)
      rw [eraseIdx_eq, Nat.sub_self, Nat.zero_add, List.drop_eq_getElem_cons hlt, List.take_succ_cons, List.take_zero, e1'] at this
      simpa [blocksL] using this
    obtain ⟨h', e, i', _⟩ := hI2.store (.seq ((ks.eraseIdx i).map HT.root))
    refine ⟨h', ks.eraseIdx i, some t, ?_, ?_, ?_, ?_, ?_, by rw [e3]; rfl⟩
    · rw [map_eraseIdx'] at e
      simp only [Option.map_some, Nat.add_zero, e2, Option.bind_some, seqSoftRemove, getSeq_ok hI2, Option.bind_eq_bind, List.length_map, hlt, if_true, e]
    · rw [cont_focus]
      refine i'.congr ?_
      rw [hsplit]; simp only [optBlocks, ← Multiset.singleton_add]; abel
    · rw [validL_iff] at hv ⊢; exact fun x hx => hv x (List.mem_of_mem_eraseIdx hx)
    · rw [validL_iff] at hv
      intro u hu
      cases hu
      exact hv _ (e1' ▸ List.getElem_mem hlt)
    · rw [← hl]; simp only [elems_eq, map_eraseIdx']

theorem arrAppend_ok {h : Heap} {a : Nat} {nm : Option (Nat × Bytes)} {s : Nat} {ks : List HT} {t : HT} {R : Blocks} (hI : Is h ((HT.cont a nm .array s ks).blocks + (t.blocks + R))) :
    ∃ h', arrAppend h a t.root = some h' ∧ Is h' ((HT.cont a nm .array s (ks ++ [t])).blocks + R) := by
  have hkp := kidsPtr_ok hI
  rw [cont_focus] at hI
  obtain ⟨h3, e3, i3⟩ := seqAppend_ok (ks := ks) (t := t) (R := (a, .elem (nm.map (·.1)) (.cont .array s)) ::ₘ (strBlock nm + R)) (hI.congr (by
    simp only [← Multiset.singleton_add]; abel))
  exact ⟨h3, by simp only [arrAppend, hkp, Option.bind_eq_bind, Option.bind_some]; exact e3, by rw [cont_focus]; exact i3⟩

theorem extendLoop_ok {s : Nat} : ∀ (ys ks : List HT) (h : Heap) (R : Blocks), Is h ((s, .seq (ks.map HT.root)) ::ₘ (blocksL ks + (blocksL ys + R))) →
    ∃ h', (ys.map HT.root).foldlM (fun h y => seqAppend h s y) h = some h' ∧ Is h' ((s, .seq ((ks ++ ys).map HT.root)) ::ₘ (blocksL (ks ++ ys) + R)) := by
  intro ys
  induction ys with
  | nil => intro ks h R hI; exact ⟨h, rfl, by simpa [blocksL] using hI⟩
  | cons y ys ih =>
    intro ks h R hI
    obtain ⟨h1, e1, i1⟩ := seqAppend_ok (t := y) (R := blocksL ys + R) (hI.congr (by simp only [blocksL]; congr 2; abel))
    obtain ⟨h2, e2, i2⟩ := ih (ks ++ [y]) h1 R i1
    refine ⟨h2, ?_, ?_⟩
    · simp only [List.map_cons, List.foldlM_cons, e1, Option.bind_eq_bind, Option.bind_some]; exact e2
    · rw [List.append_assoc] at i2; exact i2

theorem arrExtend_ok {h : Heap} {a b : Nat} {nm nm' : Option (Nat × Bytes)} {s s' : Nat} {ks ys : List HT} {R : Blocks}
    (hI : Is h ((HT.cont a nm .array s ks).blocks + ((HT.cont b nm' .array s' ys).blocks + R))) :
    ∃ h', arrExtend h a b = some h' ∧ Is h' ((HT.cont a nm .array s (ks ++ ys)).blocks + R) := by
  have hkp := kidsPtr_ok hI
  have hI2 : Is h ((HT.cont b nm' .array s' ys).blocks + ((HT.cont a nm .array s ks).blocks + R)) := hI.congr (by abel)
  have hkp2 := kidsPtr_ok hI2
  rw [cont_focus] at hI2
  have hs2 := getSeq_ok hI2
  rw [cont_focus] at hI
  obtain ⟨h1, e1, i1⟩ := extendLoop_ok ys ks h ((s', .seq (ys.map HT.root)) ::ₘ ((b, .elem (nm'.map (·.1)) (.cont .array s')) ::ₘ (strBlock nm' + ((a, .elem (nm.map (·.1)) (.cont .array s)) ::ₘ (strBlock nm + R)))))
    (hI.congr (by blocks))
  have i1' : Is h1 ((s', .seq (ys.map HT.root)) ::ₘ ((b, .elem (nm'.map (·.1)) (.cont .array s')) ::ₘ (strBlock nm' + ((HT.cont a nm .array s (ks ++ ys)).blocks + R)))) := i1.congr (by blocks)
  obtain ⟨h2, e2, i2, _⟩ := i1'.free
  have hb : getElem h2 b = some (nm'.map (·.1), .cont .array s') := by simp only [getElem, i2.get]
  have i2' : Is h2 (strBlock nm' + ((b, .elem (nm'.map (·.1)) (.cont .array s')) ::ₘ ((HT.cont a nm .array s (ks ++ ys)).blocks + R))) := i2.congr (by
    simp only [← Multiset.singleton_add]; abel)
  obtain ⟨h3, e3, i3, _⟩ := freeMaybe_ok i2'
  obtain ⟨h4, e4, i4, _⟩ := i3.free
  exact ⟨h4, by simp only [arrExtend, hkp, hkp2, hs2, e1, e2, hb, e3, e4, Option.bind_eq_bind, Option.bind_some], i4⟩

theorem arrRemoveRange_ok {h : Heap} {a : Nat} {nm : Option (Nat × Bytes)} {s : Nat} {ks : List HT} {R : Blocks} (hv : ValidL ks) (i j : Nat) (hij : i ≤ j) (hj : j < ks.length)
    (hI : Is h ((HT.cont a nm .array s ks).blocks + R)) :
    ∃ h', arrRemoveRange h a i j = some h' ∧ Is h' ((HT.cont a nm .array s (ks.take i ++ ks.drop (j + 1))).blocks + R) := by
  have hkp := kidsPtr_ok hI
  rw [cont_focus] at hI
  obtain ⟨h', e, i'⟩ := seqRemoveRange_ok hv i j hij hj hI
  exact ⟨h', by simp only [arrRemoveRange, hkp, Option.bind_eq_bind, Option.bind_some]; exact e, by rw [cont_focus]; exact i'⟩

theorem blocksL_reverse (ks : List HT) : blocksL ks.reverse = blocksL ks := by
  induction ks with
  | nil => rfl
  | cons k ks ih => rw [List.reverse_cons, blocksL_append, ih]; simp only [blocksL]; abel

theorem arrReverse_ok {h : Heap} {a : Nat} {nm : Option (Nat × Bytes)} {s : Nat} {ks : List HT} {R : Blocks} (hI : Is h ((HT.cont a nm .array s ks).blocks + R)) :
    ∃ h', arrReverse h a = some h' ∧ Is h' ((HT.cont a nm .array s ks.reverse).blocks + R) := by
  have hkp := kidsPtr_ok hI
  rw [cont_focus] at hI
  obtain ⟨h', e, i', _⟩ := hI.store (.seq (ks.reverse.map HT.root))
  refine ⟨h', ?_, ?_⟩
  · rw [List.map_reverse] at e
    simp only [arrReverse, hkp, getSeq_ok hI, Option.bind_eq_bind, Option.bind_some]; exact e
  · rw [cont_focus, blocksL_reverse]; exact i'

/-! ## Creating -/

theorem createContainer_ok {h : Heap} {R : Blocks} (hI : Is h R) (t : CType) : ∃ s, Is (createContainer h t).2 ((HT.cont (createContainer h t).1 none t s []).blocks + R) := by
  refine ⟨h.next, ((hI.alloc (.seq [])).alloc (.elem none (.cont t (alloc h (.seq [])).1))).congr ?_⟩
  simp only [createContainer, HT.blocks, strBlock, blocksL, Option.map_none, List.map_nil, Multiset.cons_add, add_zero, zero_add]
  rfl

theorem createText_ok {h : Heap} {R : Blocks} (hI : Is h R) (t : PType) (b : Bytes) : ∃ p, Is (createText h t b).2 ((HT.prim (createText h t b).1 none t (some p) b).blocks + R) := by
  refine ⟨h.next, ((hI.alloc (.str b)).alloc (.elem none (.prim t (.at (alloc h (.str b)).1)))).congr ?_⟩
  simp only [createText, createPrimitive, HT.blocks, strBlock, Option.map_none, Option.map_some, textPtr, Multiset.cons_add, zero_add, Multiset.singleton_add]
  rfl

theorem createLit_ok {h : Heap} {R : Blocks} (hI : Is h R) (t : PType) (b : Bytes) : Is (createPrimitive h t (.lit b)).2 ((HT.prim (createPrimitive h t (.lit b)).1 none t none b).blocks + R) := by
  refine (hI.alloc (.elem none (.prim t (.lit b)))).congr ?_
  simp only [createPrimitive, HT.blocks, strBlock, Option.map_none, textPtr, Multiset.cons_add, zero_add]

end JsonHeap
