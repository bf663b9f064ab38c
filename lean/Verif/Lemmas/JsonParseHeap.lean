import Verif.Model.JsonParseHeap
import Verif.Lemmas.JsonHeapOps
import Mathlib.Tactic.Abel
/-! # The parser on the heap agrees with the parser on values -/
namespace JsonHeap
open Json

/-- The outcome on the heap that goes with an outcome on values: the element, valid, beside the blocks there were; or the error, with an array lost at most when a string does not end. -/
def Agrees (s : Bytes) (R : Blocks) (v : P Elem) (x : HP) : Prop :=
  match v with
  | none => True
  | some (.ok (e, q)) => ∃ (h : Heap) (t : HT), x = some (h, .ok (t.root, q)) ∧ t.Valid ∧ t.elem = e ∧ Is h (t.blocks + R)
  | some (.error err) => ∃ (h : Heap) (b : Bool) (L : Blocks), x = some (h, .error (err, b)) ∧ Is h (L + R) ∧
      (L = 0 ∨ err = .strEnd ∧ 91 ∈ s ∧ ∃ a sq ks, ValidL ks ∧ L = (HT.cont a none .array sq ks).blocks)

theorem strLoop_err : ∀ (rest : Bytes) (p : Nat) (acc : Bytes) (e : Err), strLoop rest p acc = some (.error e) → e = .strEnd := by
  intro rest p acc e h
  fun_induction strLoop rest p acc <;> simp_all

/-- Strings. -/
theorem hString_ok {h : Heap} {R : Blocks} (hI : Is h R) (s : Bytes) (p : Nat) :
    match stringAt s p with
    | none => True
    | some (.error e) => e = .strEnd ∧ ∃ h', hString h s p = some (h', .error e) ∧ Is h' R
    | some (.ok (b, q)) => ∃ h' k, hString h s p = some (h', .ok (k, q)) ∧ Is h' ((k, .str b) ::ₘ R) := by
  have h1 := hI.alloc (.str [])
  cases hs : stringAt s p with
  | none => trivial
  | some r =>
    cases r with
    | error e =>
      obtain ⟨h', e1, i1, _⟩ := h1.free
      exact ⟨strLoop_err _ _ _ _ hs, h', by simp only [hString, hs, e1, Option.map_some], i1⟩
    | ok r =>
      obtain ⟨b, q⟩ := r
      obtain ⟨h', e1, i1, _⟩ := h1.store (.str b)
      exact ⟨h', (alloc h (.str [])).1, by simp only [hString, hs, e1, Option.map_some], i1⟩

theorem hStringValue_ok {h : Heap} {R : Blocks} (hI : Is h R) (s : Bytes) (p : Nat) :
    match stringValueAt s p with
    | none => True
    | some (.error e) => e = .strEnd ∧ ∃ h', hStringValue h s p = some (h', .error (e, false)) ∧ Is h' R
    | some (.ok (e, q)) => ∃ (h' : Heap) (t : HT), hStringValue h s p = some (h', .ok (t.root, q)) ∧ t.Valid ∧ t.elem = e ∧ Is h' (t.blocks + R) := by
  have h1 := hString_ok hI s p
  cases hs : stringAt s p with
  | none => simp only [stringValueAt, hs, andThen]
  | some r =>
    rw [hs] at h1
    cases r with
    | error e =>
      obtain ⟨he, h', e1, i1⟩ := h1
      simp only [stringValueAt, hs, andThen]
      exact ⟨he, h', by simp only [hStringValue, e1], i1⟩
    | ok r =>
      obtain ⟨b, q⟩ := r
      obtain ⟨h', k, e1, i1⟩ := h1
      simp only [stringValueAt, hs, andThen]
      obtain ⟨pt, i2⟩ := createText_ok i1 .string (decode b)
      have i3 : Is (createText h' .string (decode b)).2 ((k, .str b) ::ₘ ((HT.prim (createText h' .string (decode b)).1 none .string (some pt) (decode b)).blocks + R)) := i2.congr (by
        simp only [← Multiset.singleton_add]; abel)
      obtain ⟨h'', e2, i4, _⟩ := i3.free
      have hg : getStr h' (.at k) = some b := by simp only [getStr, i1.get]
      refine ⟨h'', HT.prim (createText h' .string (decode b)).1 none .string (some pt) (decode b), ?_, ?_, ?_, i4⟩
      · simp only [hStringValue, e1, hg, Option.bind_eq_bind, Option.bind_some, e2, HT.root]
      · simp [HT.Valid]
      · simp [HT.elem, stringCreate]

/-- Numbers are primitives without a name, of a type whose text is freed. -/
theorem numLoop_prim : ∀ (rest : Bytes) (p : Nat) (n : Num) (e : Elem) (q : Nat), numLoop rest p n = some (.ok (e, q)) → ∃ t b, e = .prim none t b ∧ (t = .real ∨ t = .integer) := by
  intro rest
  induction rest with
  | nil =>
    intro p n e q h
    rw [numLoop, numEnd] at h
    split at h
    · cases h
    · simp only [Option.some.injEq, Except.ok.injEq, Prod.mk.injEq] at h
      exact ⟨_, _, h.1.symm, by split <;> simp⟩
  | cons c r ih =>
    intro p n e q h
    rw [numLoop] at h
    split at h
    · rw [numEnd] at h
      split at h
      · cases h
      · simp only [Option.some.injEq, Except.ok.injEq, Prod.mk.injEq] at h
        exact ⟨_, _, h.1.symm, by split <;> simp⟩
    · cases hn : numStep n c with
      | error e => rw [hn] at h; cases h
      | ok n' => rw [hn] at h; exact ih _ _ _ _ h

theorem hNumber_ok {h : Heap} {R : Blocks} (hI : Is h R) (s : Bytes) (p : Nat) : Agrees s R (numLoop (s.drop p) p {}) (hNumber h s p) := by
  have h1 := hI.alloc (.str [])
  cases hs : numLoop (s.drop p) p {} with
  | none => trivial
  | some r =>
    cases r with
    | error e =>
      obtain ⟨h', e1, i1, _⟩ := h1.free
      exact ⟨h', true, 0, by simp only [hNumber, hs, e1, Option.map_some], by simpa using i1, .inl rfl⟩
    | ok r =>
      obtain ⟨e, q⟩ := r
      obtain ⟨t, b, rfl, ht⟩ := numLoop_prim _ _ _ _ _ hs
      obtain ⟨h', e1, i1, _⟩ := h1.store (.str b)
      have i2 := i1.alloc (.elem none (.prim t (.at (alloc h (.str [])).1)))
      refine ⟨_, HT.prim (createPrimitive h' t (.at (alloc h (.str [])).1)).1 none t (some (alloc h (.str [])).1) b, by simp only [hNumber, hs, e1, Option.map_some]; rfl, ?_, ?_, i2.congr ?_⟩
      · rcases ht with rfl | rfl <;> simp [HT.Valid]
      · simp [HT.elem]
      · simp only [createPrimitive, HT.blocks, strBlock, Option.map_none, Option.map_some, textPtr, Multiset.cons_add, zero_add, Multiset.singleton_add]

theorem wordAt_prim {s : Bytes} {p : Nat} {e : Elem} {q : Nat} (h : wordAt s p = some (.ok (e, q))) : ∃ t b, e = .prim none t b ∧ (t = .null ∨ t = .bool) := by
  simp only [wordAt, Option.bind_eq_some_iff] at h
  obtain ⟨a, _, h⟩ := h
  split at h
  · simp only [Option.some.injEq, Except.ok.injEq, Prod.mk.injEq, boolCreate] at h; exact ⟨_, _, h.1.symm, .inr rfl⟩
  · rw [Option.bind_eq_some_iff] at h
    obtain ⟨a, _, h⟩ := h
    split at h
    · simp only [Option.some.injEq, Except.ok.injEq, Prod.mk.injEq, boolCreate] at h; exact ⟨_, _, h.1.symm, .inr rfl⟩
    · rw [Option.bind_eq_some_iff] at h
      obtain ⟨a, _, h⟩ := h
      split at h
      · simp only [Option.some.injEq, Except.ok.injEq, Prod.mk.injEq, nullCreate] at h; exact ⟨_, _, h.1.symm, .inl rfl⟩
      · cases h

theorem hWord_ok {h : Heap} {R : Blocks} (hI : Is h R) (s : Bytes) (p : Nat) : Agrees s R (wordAt s p) (hWord h s p) := by
  cases hs : wordAt s p with
  | none => trivial
  | some r =>
    cases r with
    | error e => exact ⟨h, true, 0, by simp only [hWord, hs], by simpa using hI, .inl rfl⟩
    | ok r =>
      obtain ⟨e, q⟩ := r
      obtain ⟨t, b, rfl, ht⟩ := wordAt_prim hs
      refine ⟨_, HT.prim (createPrimitive h t (.lit b)).1 none t none b, by simp only [hWord, hs]; rfl, ?_, ?_, createLit_ok hI t b⟩
      · rcases ht with rfl | rfl <;> simp [HT.Valid]
      · simp [HT.elem]

theorem hScalar_ok {h : Heap} {R : Blocks} (hI : Is h R) (s : Bytes) (p : Nat) (c : UInt8) : Agrees s R (scalarAt s p c) (hScalar h s p c) := by
  unfold scalarAt hScalar
  by_cases hc : startsNumber c = true
  · rw [if_pos hc, if_pos (by simpa [startsNumber, or_assoc] using hc)]
    exact hNumber_ok hI s p
  · rw [if_neg hc, if_neg (by simpa [startsNumber, or_assoc] using hc)]
    exact hWord_ok hI s p

theorem dropArray_ok {s : Bytes} {h : Heap} {a sq : Nat} {ks : List HT} {L R : Blocks} (hv : ValidL ks) (hI : Is h ((HT.cont a none .array sq ks).blocks + (L + R)))
    {e : Err} (hL : L = 0 ∨ e = .strEnd ∧ 91 ∈ s ∧ ∃ a sq ks, ValidL ks ∧ L = (HT.cont a none .array sq ks).blocks) (null : Bool) : Agrees s R (some (.error e)) (dropArray h a e null) := by
  obtain ⟨h', e1, i1, _⟩ := destroy_ok (t := .cont a none .array sq ks) hv hI
  exact ⟨h', null, L, by simp only [dropArray, show destroy h a = some h' from e1, Option.bind_eq_bind, Option.bind_some], i1, hL⟩

theorem dropObject_ok {s : Bytes} {h : Heap} {a sq : Nat} {ks : List HT} {nm : Option (Nat × Bytes)} {L R : Blocks} (hv : ValidL ks) (hI : Is h ((HT.cont a none .object sq ks).blocks + (strBlock nm + (L + R))))
    {e : Err} (hL : L = 0 ∨ e = .strEnd ∧ 91 ∈ s ∧ ∃ a sq ks, ValidL ks ∧ L = (HT.cont a none .array sq ks).blocks) (null : Bool) :
    Agrees s R (some (.error e)) (dropObject h a (nm.map (·.1)) e null) := by
  have hI2 : Is h (strBlock nm + ((HT.cont a none .object sq ks).blocks + (L + R))) := hI.congr (by abel)
  obtain ⟨h1, e1, i1, _⟩ := freeMaybe_ok hI2
  obtain ⟨h', e2, i2, _⟩ := destroy_ok (t := .cont a none .object sq ks) hv i1
  exact ⟨h', null, L, by simp only [dropObject, e1, show destroy h1 a = some h' from e2, Option.bind_eq_bind, Option.bind_some], i2, hL⟩

theorem main (s : Bytes) : ∀ (f : Nat),
    (∀ (h : Heap) (R : Blocks) (p : Nat) (c : UInt8), Is h R → (c = 91 → 91 ∈ s) → Agrees s R (valueAt f s p c) (hValueAt f h s p c)) ∧
    (∀ (h : Heap) (R : Blocks) (p : Nat) (prev : UInt8) (a sq : Nat) (ks : List HT), 91 ∈ s → ValidL ks → Is h ((HT.cont a none .array sq ks).blocks + R) →
      Agrees s R (arrLoop f s p prev (elems ks)) (hArrLoop f h s p prev a)) ∧
    (∀ (h : Heap) (R : Blocks) (p : Nat) (prev : UInt8) (a sq : Nat) (ks : List HT) (nm : Option (Nat × Bytes)), ValidL ks → Is h ((HT.cont a none .object sq ks).blocks + (strBlock nm + R)) →
      Agrees s R (objLoop f s p prev (nm.map (·.2)) (elems ks)) (hObjLoop f h s p prev a (nm.map (·.1)))) := by
  intro f
  induction f with
  | zero => exact ⟨fun _ _ _ _ _ _ => trivial, fun _ _ _ _ _ _ _ _ _ _ => trivial, fun _ _ _ _ _ _ _ _ _ _ => trivial⟩
  | succ f ih =>
    obtain ⟨ihV, ihA, ihO⟩ := ih
    have hmem : ∀ p c, c ≠ 0 → rd s p = some c → c ∈ s := by
      intro p c hc hr
      have := List.mem_of_getElem? hr
      simp only [List.mem_append, List.mem_singleton] at this
      exact this.resolve_right hc
    refine ⟨?_, ?_, ?_⟩
    · intro h R p c hI hc91
      rw [valueAt, hValueAt]
      split
      · have := hStringValue_ok hI s p
        cases hs : stringValueAt s p with
        | none => trivial
        | some r =>
          rw [hs] at this
          cases r with
          | error e =>
            obtain ⟨_, h', e1, i1⟩ := this
            exact ⟨h', false, 0, e1, by simpa using i1, .inl rfl⟩
          | ok r => exact this
      · split
        · rename_i hc
          obtain ⟨sq, i1⟩ := createContainer_ok hI .array
          exact ihA _ R (p + 1) 91 _ sq [] (hc91 hc) trivial i1
        · split
          · obtain ⟨sq, i1⟩ := createContainer_ok hI .object
            exact ihO _ R (p + 1) 123 _ sq [] none trivial (i1.congr (by simp [strBlock]))
          · exact hScalar_ok hI s p c
    · intro h R p prev a sq ks h91 hv hI
      have hI0 : Is h ((HT.cont a none .array sq ks).blocks + (0 + R)) := hI.congr (by simp)
      rw [arrLoop, hArrLoop]
      cases hr : rd s p with
      | none => trivial
      | some c =>
        simp only []
        split
        · exact dropArray_ok hv hI0 (.inl rfl) true
        rename_i hc0
        split
        · exact ihA h R (p + 1) prev a sq ks h91 hv hI
        split
        · split
          · exact dropArray_ok hv hI0 (.inl rfl) false
          · exact ihA h R (p + 1) c a sq ks h91 hv hI
        split
        · exact ⟨h, .cont a none .array sq ks, rfl, hv, by simp [HT.elem], hI⟩
        split
        · exact dropArray_ok hv hI0 (.inl rfl) false
        have hV := ihV h ((HT.cont a none .array sq ks).blocks + R) p c hI (fun _ => h91)
        by_cases hc : c = 34
        · cases f with
          | zero => trivial
          | succ f =>
            have hS := hStringValue_ok hI s p
            simp only [valueAt, hValueAt, hc, if_true] at hV ⊢
            cases hs : stringValueAt s p with
            | none => trivial
            | some r =>
              rw [hs] at hS
              cases r with
              | error e =>
                obtain ⟨he, h', e1, i1⟩ := hS
                simp only [andThen, e1]
                exact ⟨h', false, _, rfl, i1, .inr ⟨he, h91, a, sq, ks, hv, rfl⟩⟩
              | ok r =>
                obtain ⟨e, q⟩ := r
                obtain ⟨h', t, e1, hvt, rfl, i1⟩ := hS
                obtain ⟨h2, e2, i2⟩ := arrAppend_ok (i1.congr (by abel : t.blocks + ((HT.cont a none .array sq ks).blocks + R) = (HT.cont a none .array sq ks).blocks + (t.blocks + R)))
                simp only [andThen, e1, e2, Option.bind_eq_bind, Option.bind_some]
                cases hq : rd s q with
                | none => trivial
                | some prev' =>
                  simp only [Option.bind_some]
                  have := ihA h2 R (q + 1) prev' a sq (ks ++ [t]) h91 (validL_append.mpr ⟨hv, hvt, trivial⟩) i2
                  rwa [show elems (ks ++ [t]) = elems ks ++ [t.elem] by simp [elems_eq]] at this
        · simp only [if_neg hc]
          cases hv1 : valueAt f s p c with
          | none => trivial
          | some v =>
            rw [hv1] at hV
            cases v with
            | error e =>
              obtain ⟨h', bb, L, e1, i1, hL⟩ := hV
              simp only [andThen, e1]
              exact dropArray_ok hv (i1.congr (by abel)) hL (unknown c)
            | ok r =>
              obtain ⟨e, q⟩ := r
              obtain ⟨h', t, e1, hvt, rfl, i1⟩ := hV
              obtain ⟨h2, e2, i2⟩ := arrAppend_ok (i1.congr (by abel : t.blocks + ((HT.cont a none .array sq ks).blocks + R) = (HT.cont a none .array sq ks).blocks + (t.blocks + R)))
              simp only [andThen, e1, e2, Option.bind_eq_bind, Option.bind_some]
              cases hq : rd s q with
              | none => trivial
              | some prev' =>
                simp only [Option.bind_some]
                have := ihA h2 R (q + 1) prev' a sq (ks ++ [t]) h91 (validL_append.mpr ⟨hv, hvt, trivial⟩) i2
                rwa [show elems (ks ++ [t]) = elems ks ++ [t.elem] by simp [elems_eq]] at this
    · intro h R p prev a sq ks nm hv hI
      have hI0 : Is h ((HT.cont a none .object sq ks).blocks + (strBlock nm + (0 + R))) := hI.congr (by simp)
      have hnm : (nm.map (·.1) = none) ↔ (nm.map (·.2) = none) := by simp
      rw [objLoop, hObjLoop]
      cases hr : rd s p with
      | none => trivial
      | some c =>
        simp only [ne_eq, hnm]
        split
        · exact dropObject_ok hv hI0 (.inl rfl) true
        rename_i hc0
        split
        · exact ihO h R (p + 1) prev a sq ks nm hv hI
        split
        · split
          · exact dropObject_ok hv hI0 (.inl rfl) true
          · exact ihO h R (p + 1) c a sq ks nm hv hI
        split
        · split
          · exact dropObject_ok hv hI0 (.inl rfl) false
          · exact ihO h R (p + 1) c a sq ks nm hv hI
        split
        · split
          · exact dropObject_ok hv hI0 (.inl rfl) true
          · rename_i hn
            rw [Decidable.not_not] at hn
            have hn' : nm = none := by simpa using hn
            subst hn'
            exact ⟨h, .cont a none .object sq ks, rfl, hv, by simp [HT.elem], hI.congr (by simp [strBlock])⟩
        cases nm with
        | some kb =>
          obtain ⟨k, b⟩ := kb
          have hV := ihV h ((HT.cont a none .object sq ks).blocks + (strBlock (some (k, b)) + R)) p c hI (fun hc => hc ▸ hmem p c hc0 hr)
          simp only [Option.map_some]
          cases hv1 : valueAt f s p c with
          | none => trivial
          | some v =>
            rw [hv1] at hV
            cases v with
            | error e =>
              obtain ⟨h', bb, L, e1, i1, hL⟩ := hV
              simp only [andThen, e1]
              exact dropObject_ok (nm := some (k, b)) hv (i1.congr (by abel)) hL (unknown c)
            | ok r =>
              obtain ⟨e, q⟩ := r
              obtain ⟨h', t, e1, hvt, rfl, i1⟩ := hV
              have i2 : Is h' ((HT.cont a none .object sq ks).blocks + (t.blocks + (strBlock (some (k, b)) + R))) := i1.congr (by abel)
              obtain ⟨h2, ks2, e2, i3, v3, l3⟩ := put_ok hv hvt (k := .at k) (b := b) (.inr ⟨k, rfl, by simp [strBlock]⟩) i2
              have i4 : Is h2 ((k, .str b) ::ₘ ((HT.cont a none .object sq ks2).blocks + R)) := i3.congr (by simp only [strBlock, ← Multiset.singleton_add]; abel)
              obtain ⟨h3, e3, i5, _⟩ := i4.free
              simp only [andThen, e1, e2, e3, Option.bind_eq_bind, Option.bind_some]
              cases hq : rd s q with
              | none => trivial
              | some prev' =>
                simp only [Option.bind_some]
                have := ihO h3 R (q + 1) prev' a sq ks2 none v3 (i5.congr (by simp [strBlock]))
                rwa [l3] at this
        | none =>
          simp only [Option.map_none]
          have hI' : Is h ((HT.cont a none .object sq ks).blocks + R) := hI.congr (by simp [strBlock])
          split
          · have hS := hString_ok hI' s p
            cases hs : stringAt s p with
            | none => trivial
            | some r =>
              rw [hs] at hS
              cases r with
              | error e =>
                obtain ⟨he, h', e1, i1⟩ := hS
                simp only [andThen, e1]
                exact dropObject_ok (sq := sq) (nm := none) hv (i1.congr (by simp [strBlock])) (.inl rfl) false
              | ok r =>
                obtain ⟨b, q⟩ := r
                obtain ⟨h', k, e1, i1⟩ := hS
                simp only [andThen, e1, Option.bind_eq_bind]
                cases hq : rd s q with
                | none => trivial
                | some prev' =>
                  simp only [Option.bind_some]
                  exact ihO h' R (q + 1) prev' a sq ks (some (k, b)) hv (i1.congr (by simp only [strBlock, ← Multiset.singleton_add]; abel))
          · split
            · exact dropObject_ok (nm := none) hv hI0 (.inl rfl) false
            · split
              · exact dropObject_ok (nm := none) hv hI0 (.inl rfl) true
              · cases hu : unquotedKey s p with
                | none => exact dropObject_ok (nm := none) hv hI0 (.inl rfl) true
                | some colon =>
                  simp only []
                  have i1 := hI'.alloc (.str ((s.drop p).take (backWs s colon - p)))
                  exact ihO _ R (colon + 1) 58 a sq ks (some (_, _)) hv (i1.congr (by simp only [strBlock, ← Multiset.singleton_add]; abel))

theorem hParseLoop_ok {h : Heap} {R : Blocks} (hI : Is h R) (s : Bytes) : ∀ (rest : Bytes) (p : Nat), (∀ c ∈ rest, c ∈ s) → Agrees s R (parseLoop s rest p) (hParseLoop h s rest p) := by
  intro rest
  induction rest with
  | nil => intro p _; exact ⟨h, false, 0, rfl, by simpa using hI, .inl rfl⟩
  | cons c r ih =>
    intro p hm
    rw [parseLoop, hParseLoop]
    have hc : c = 91 → 91 ∈ s := fun e => e ▸ hm c (by simp)
    split
    · exact (main s _).1 h R p c hI hc
    · split
      · exact ih (p + 1) (fun c hc => hm c (by simp [hc]))
      · exact (main s _).1 h R p c hI hc

end JsonHeap
