import Verif.Lemmas.JsonHeapOps
/-! # Copying and merging trees in a heap -/
namespace JsonHeap
open Json

/-- `cp` copies this tree to new blocks. -/
def CopyOf (rt : RealText) (cp : Heap → Nat → Option (Nat × Heap)) (t : HT) : Prop :=
  ∀ (h : Heap) (R : Blocks) (e : Elem), Is h (t.blocks + R) → Json.copy rt t.elem = some e →
    ∃ (h' : Heap) (t' : HT), cp h t.root = some (t'.root, h') ∧ t'.Valid ∧ t'.elem = e ∧ Is h' (t'.blocks + (t.blocks + R))

theorem copyIntoArray_ok {rt : RealText} {cp : Heap → Nat → Option (Nat × Heap)} {a : Nat} {nm : Option (Nat × Bytes)} {s : Nat} : ∀ (ks : List HT), (∀ t ∈ ks, CopyOf rt cp t) →
    ∀ (h : Heap) (acc : List HT) (R : Blocks) (out : List Elem), ValidL acc → Is h ((HT.cont a nm .array s acc).blocks + (blocksL ks + R)) → copyArray rt (elems ks) (elems acc) = some out →
      ∃ (h' : Heap) (acc' : List HT), copyIntoArray cp a h (ks.map HT.root) = some h' ∧ ValidL acc' ∧ elems acc' = out ∧ Is h' ((HT.cont a nm .array s acc').blocks + (blocksL ks + R)) := by
  intro ks
  induction ks with
  | nil =>
    intro _ h acc R out hv hI ho
    simp only [elems, copyArray, Option.some.injEq] at ho
    exact ⟨h, acc, rfl, hv, ho, hI⟩
  | cons t ks ih =>
    intro hcp h acc R out hv hI ho
    simp only [elems, copyArray, Option.bind_eq_some_iff] at ho
    obtain ⟨e, he, ho⟩ := ho
    obtain ⟨h1, t1, e1, v1, l1, i1⟩ := hcp t (by simp) h ((HT.cont a nm .array s acc).blocks + (blocksL ks + R)) e (hI.congr (by simp only [blocksL]; abel)) he
    obtain ⟨h2, e2, i2⟩ := arrAppend_ok (a := a) (nm := nm) (s := s) (ks := acc) (t := t1) (R := t.blocks + (blocksL ks + R)) (i1.congr (by abel))
    obtain ⟨h3, acc3, e3, v3, l3, i3⟩ := ih (fun t ht => hcp t (by simp [ht])) h2 (acc ++ [t1]) (t.blocks + R) out (validL_append.mpr ⟨hv, v1, trivial⟩) (i2.congr (by abel)) (by
      rw [elems_eq (acc ++ [t1]), List.map_append, ← elems_eq]
      simp only [List.map_cons, List.map_nil, l1]
      exact ho)
    refine ⟨h3, acc3, ?_, v3, l3, i3.congr (by simp only [blocksL]; abel)⟩
    simp only [List.map_cons, copyIntoArray, e1, e2, Option.bind_eq_bind, Option.bind_some]
    exact e3

theorem copyIntoObject_ok {rt : RealText} {cp : Heap → Nat → Option (Nat × Heap)} {a : Nat} {nm : Option (Nat × Bytes)} {s : Nat} : ∀ (ks : List HT), (∀ t ∈ ks, CopyOf rt cp t) →
    ∀ (h : Heap) (acc : List HT) (R : Blocks) (out : List Elem), ValidL acc → Is h ((HT.cont a nm .object s acc).blocks + (blocksL ks + R)) → copyObject rt (elems ks) (elems acc) = some out →
      ∃ (h' : Heap) (acc' : List HT), copyIntoObject cp a h (ks.map HT.root) = some h' ∧ ValidL acc' ∧ elems acc' = out ∧ Is h' ((HT.cont a nm .object s acc').blocks + (blocksL ks + R)) := by
  intro ks
  induction ks with
  | nil =>
    intro _ h acc R out hv hI ho
    simp only [elems, copyObject, Option.some.injEq] at ho
    exact ⟨h, acc, rfl, hv, ho, hI⟩
  | cons t ks ih =>
    intro hcp h acc R out hv hI ho
    simp only [elems, copyObject, Option.bind_eq_some_iff] at ho
    obtain ⟨k, hk, e, he, ho⟩ := ho
    rw [HT.elem_name, Option.map_eq_some_iff] at hk
    obtain ⟨⟨q, c⟩, hn, rfl⟩ := hk
    have hI' : Is h (t.blocks + ((HT.cont a nm .object s acc).blocks + (blocksL ks + R))) := hI.congr (by simp only [blocksL]; abel)
    have hge := (hI'.has sub_left).elem
    obtain ⟨h1, t1, e1, v1, l1, i1⟩ := hcp t (by simp) h ((HT.cont a nm .object s acc).blocks + (blocksL ks + R)) e hI' he
    have hkey : KeyIn (.at q) c (t.blocks + (blocksL ks + R)) := .inr ⟨q, rfl, by rw [HT.blocks_eq, hn]; simp [strBlock]⟩
    obtain ⟨h2, acc2, e2, i2, v2, l2⟩ := put_ok (a := a) (nm := nm) (s := s) (ks := acc) (t := t1) (R := t.blocks + (blocksL ks + R)) hv v1 hkey (i1.congr (by abel))
    obtain ⟨h3, acc3, e3, v3, l3, i3⟩ := ih (fun t ht => hcp t (by simp [ht])) h2 acc2 (t.blocks + R) out v2 (i2.congr (by abel)) (by rw [l2, l1]; exact ho)
    refine ⟨h3, acc3, ?_, v3, l3, i3.congr (by simp only [blocksL]; abel)⟩
    simp only [List.map_cons, copyIntoObject, hge, hn, Option.map_some, e1, e2, Option.bind_eq_bind, Option.bind_some]
    exact e3

theorem copyPrimitive_ok {rt : RealText} {h : Heap} {a : Nat} {n : Option (Nat × Bytes)} {t : PType} {p : Option Nat} {b : Bytes} {R : Blocks} {e : Elem} (hI : Is h ((HT.prim a n t p b).blocks + R))
    (he : primCopy rt t b = some e) :
    ∃ (h' : Heap) (t' : HT), copyPrimitive rt h t (textPtr p b) = some (t'.root, h') ∧ t'.Valid ∧ t'.elem = e ∧ Is h' (t'.blocks + ((HT.prim a n t p b).blocks + R)) := by
  have hb : getStr h (textPtr p b) = some b := by
    cases p with
    | none => rfl
    | some q =>
      have := hI.has (m' := {(q, .str b)}) (fun x hx => by simp at hx; subst hx; simp [HT.blocks, strBlock]) (q, .str b) (by simp)
      simp only [textPtr, getStr, this]
  have text : ∀ (t' : PType) (b' : Bytes), t' ≠ .null ∧ t' ≠ .bool → e = .prim none t' b' → copyPrimitive rt h t (textPtr p b) = some (createText h t' b') →
      ∃ (h' : Heap) (u : HT), copyPrimitive rt h t (textPtr p b) = some (u.root, h') ∧ u.Valid ∧ u.elem = e ∧ Is h' (u.blocks + ((HT.prim a n t p b).blocks + R)) := by
    intro t' b' ht hee hc
    obtain ⟨q, hq⟩ := createText_ok hI t' b'
    exact ⟨(createText h t' b').2, HT.prim (createText h t' b').1 none t' (some q) b', hc, by simp [HT.Valid, ht], by rw [hee]; rfl, hq⟩
  cases t with
  | string =>
    simp only [primCopy, Option.some.injEq] at he
    exact text .string b (by simp) he.symm (by simp only [copyPrimitive, hb, Option.bind_eq_bind, Option.bind_some])
  | integer =>
    simp only [primCopy, Option.map_eq_some_iff] at he
    obtain ⟨x, hx, he⟩ := he
    exact text .integer _ (by simp) he.symm (by simp only [copyPrimitive, hb, Option.bind_eq_bind, Option.bind_some, hx])
  | real =>
    simp only [primCopy, Option.some.injEq] at he
    exact text .real _ (by simp) he.symm (by simp only [copyPrimitive, hb, Option.bind_eq_bind, Option.bind_some])
  | bool =>
    simp only [primCopy, Option.some.injEq] at he
    exact ⟨(createBool h (b == litTrue)).2, HT.prim (createBool h (b == litTrue)).1 none .bool none (if b == litTrue then litTrue else litFalse), by simp only [copyPrimitive, hb, Option.bind_eq_bind, Option.bind_some]; rfl,
      by simp [HT.Valid], he, createLit_ok hI .bool _⟩
  | null =>
    simp only [primCopy, Option.some.injEq] at he
    exact ⟨(createNull h).2, HT.prim (createNull h).1 none .null none litNull, by simp only [copyPrimitive, hb, Option.bind_eq_bind, Option.bind_some]; rfl, by simp [HT.Valid], he, createLit_ok hI .null _⟩

theorem copyN_ok (rt : RealText) : ∀ (n : Nat) (t : HT), t.depth ≤ n → CopyOf rt (copyN rt n) t := by
  intro n
  induction n with
  | zero => intro t hd; cases t <;> simp [HT.depth] at hd
  | succ n ih =>
    intro t hd h R e hI he
    have hge := (hI.has sub_left).elem
    cases t with
    | prim a nm t p b =>
      simp only [HT.elem, Json.copy] at he
      obtain ⟨h', t', e1, r⟩ := copyPrimitive_ok hI he
      refine ⟨h', t', ?_, r⟩
      simp only [copyN, hge, HT.body, Option.bind_eq_bind, Option.bind_some]
      exact e1
    | cont a nm t s ks =>
      simp only [HT.depth] at hd
      have hks : ∀ k ∈ ks, CopyOf rt (copyN rt n) k := fun k hk => ih k (depthL_le.mp (by omega) k hk)
      have hs : getSeq h s = some (ks.map HT.root) := by rw [cont_focus] at hI; exact getSeq_ok hI
      obtain ⟨s', i1⟩ := createContainer_ok hI t
      cases t with
      | array =>
        simp only [HT.elem, Json.copy, Option.map_eq_some_iff] at he
        obtain ⟨out, ho, rfl⟩ := he
        obtain ⟨h2, acc, e2, v2, l2, i2⟩ := copyIntoArray_ok ks hks (createContainer h .array).2 [] ((a, .elem (nm.map (·.1)) (.cont .array s)) ::ₘ (s, .seq (ks.map HT.root)) ::ₘ (strBlock nm + R)) out trivial
          (i1.congr (by blocks)) ho
        refine ⟨h2, HT.cont (createContainer h .array).1 none .array s' acc, ?_, v2, by simp only [HT.elem, l2]; rfl, i2.congr (by blocks)⟩
        simp only [copyN, hge, HT.body, hs, Option.bind_eq_bind, Option.bind_some, e2]
        rfl
      | object =>
        simp only [HT.elem, Json.copy, Option.map_eq_some_iff] at he
        obtain ⟨out, ho, rfl⟩ := he
        obtain ⟨h2, acc, e2, v2, l2, i2⟩ := copyIntoObject_ok ks hks (createContainer h .object).2 [] ((a, .elem (nm.map (·.1)) (.cont .object s)) ::ₘ (s, .seq (ks.map HT.root)) ::ₘ (strBlock nm + R)) out trivial
          (i1.congr (by blocks)) ho
        refine ⟨h2, HT.cont (createContainer h .object).1 none .object s' acc, ?_, v2, by simp only [HT.elem, l2]; rfl, i2.congr (by blocks)⟩
        simp only [copyN, hge, HT.body, hs, Option.bind_eq_bind, Option.bind_some, e2]
        rfl

theorem copy_ok (rt : RealText) (t : HT) : CopyOf rt (copy rt) t := by
  intro h R e hI he
  exact copyN_ok rt (h.next + 1) t (by have := hI.depth_le; omega) h R e hI he

/-- The elements of a copy of an object: an object. -/
theorem copy_object_shape {rt : RealText} {n : Option Bytes} {ks : List Elem} {out : List Elem} (h : copyObject rt ks [] = some out) : Json.copy rt (.cont n .object ks) = some (.cont none .object out) := by
  simp [Json.copy, h]

theorem cont_of_elem {t : HT} {n : Option Bytes} {ct : CType} {ks : List Elem} (h : t.elem = .cont n ct ks) : ∃ a nm s kids, t = .cont a nm ct s kids ∧ elems kids = ks ∧ nm.map (·.2) = n := by
  cases t with
  | prim => simp [HT.elem] at h
  | cont a nm ct' s kids =>
    simp only [HT.elem, Elem.cont.injEq] at h
    obtain ⟨h1, rfl, h2⟩ := h
    exact ⟨a, nm, s, kids, rfl, h2, h1⟩

theorem mergeArrayLoop_ok {rt : RealText} {a : Nat} {nm : Option (Nat × Bytes)} {s : Nat} : ∀ (ks : List HT) (i : Nat) (h : Heap) (acc : List HT) (R : Blocks) (out : List Elem), ValidL acc →
    Is h ((HT.cont a nm .object s acc).blocks + (blocksL ks + R)) → Json.mergeArrayLoop rt i (elems ks) (elems acc) = some out →
      ∃ (h' : Heap) (acc' : List HT), mergeArrayLoop rt a i h (ks.map HT.root) = some h' ∧ ValidL acc' ∧ elems acc' = out ∧ Is h' ((HT.cont a nm .object s acc').blocks + (blocksL ks + R)) := by
  intro ks
  induction ks with
  | nil =>
    intro i h acc R out hv hI ho
    simp only [elems, Json.mergeArrayLoop, Option.some.injEq] at ho
    exact ⟨h, acc, rfl, hv, ho, hI⟩
  | cons t ks ih =>
    intro i h acc R out hv hI ho
    simp only [elems, Json.mergeArrayLoop, Option.bind_eq_some_iff] at ho
    obtain ⟨e, he, ho⟩ := ho
    have i0 := hI.alloc (.str (intText i))
    have i0' : Is (alloc h (.str (intText i))).2 (t.blocks + (((alloc h (.str (intText i))).1, .str (intText i)) ::ₘ ((HT.cont a nm .object s acc).blocks + (blocksL ks + R)))) := i0.congr (by
      simp only [blocksL, ← Multiset.singleton_add]; abel)
    obtain ⟨h1, t1, e1, v1, l1, i1⟩ := copy_ok rt t _ _ e i0' he
    have hkey : KeyIn (.at (alloc h (.str (intText i))).1) (intText i) (((alloc h (.str (intText i))).1, .str (intText i)) ::ₘ (t.blocks + (blocksL ks + R))) := .inr ⟨_, rfl, by simp⟩
    obtain ⟨h2, acc2, e2, i2, v2, l2⟩ := put_ok (a := a) (nm := nm) (s := s) (ks := acc) (t := t1) hv v1 hkey (i1.congr (by simp only [← Multiset.singleton_add]; abel))
    have i2' : Is h2 (((alloc h (.str (intText i))).1, .str (intText i)) ::ₘ ((HT.cont a nm .object s acc2).blocks + (t.blocks + (blocksL ks + R)))) := i2.congr (by simp only [← Multiset.singleton_add]; abel)
    obtain ⟨h3, e3, i3, _⟩ := i2'.free
    obtain ⟨h4, acc4, e4, v4, l4, i4⟩ := ih (i + 1) h3 acc2 (t.blocks + R) out v2 (i3.congr (by abel)) (by rw [l2, l1]; exact ho)
    refine ⟨h4, acc4, ?_, v4, l4, i4.congr (by simp only [blocksL]; abel)⟩
    simp only [List.map_cons, mergeArrayLoop, e1, e2, e3, Option.bind_eq_bind, Option.bind_some]
    exact e4

theorem container_ok {h : Heap} {a : Nat} {nm : Option (Nat × Bytes)} {t : CType} {s : Nat} {ks : List HT} (hH : Has h (HT.cont a nm t s ks).blocks) : container h a = some (t, ks.map HT.root) := by
  have hg := hH.elem
  simp only [HT.root, HT.body] at hg
  have : h.cell s = some (.seq (ks.map HT.root)) := hH (s, .seq (ks.map HT.root)) (by simp [HT.blocks])
  simp only [container, hg, Option.bind_eq_bind, Option.bind_some, getSeq, this, Option.map_some]

theorem merge_ok (rt : RealText) {h : Heap} {M : Blocks} (hI : Is h M) {ta tb : HT} {Ra Rb : Blocks} (ha : M = ta.blocks + Ra) (hb : M = tb.blocks + Rb) {e : Elem} (he : Json.merge rt ta.elem tb.elem = some e) :
    ∃ (h' : Heap) (t' : HT), merge rt h ta.root tb.root = some (t'.root, h') ∧ t'.Valid ∧ t'.elem = e ∧ Is h' (t'.blocks + M) := by
  have key : ∀ (a b : Nat) (na nb : Option (Nat × Bytes)) (ca cb : CType) (sa sb : Nat) (ka kb : List HT), ta = .cont a na ca sa ka → tb = .cont b nb cb sb kb →
      ∃ (h' : Heap) (t' : HT), merge rt h ta.root tb.root = some (t'.root, h') ∧ t'.Valid ∧ t'.elem = e ∧ Is h' (t'.blocks + M) := by
    intro a b na nb ca cb sa sb ka kb hta htb
    have hca : container h ta.root = some (ca, ka.map HT.root) := by
      have : Has h ta.blocks := hI.has (by rw [ha]; exact sub_left)
      rw [hta] at this ⊢
      exact container_ok this
    have hcb : container h tb.root = some (cb, kb.map HT.root) := by
      have : Has h tb.blocks := hI.has (by rw [hb]; exact sub_left)
      rw [htb] at this ⊢
      exact container_ok this
    have hka : ∃ Q, M = blocksL ka + Q := ⟨((a, .elem (na.map (·.1)) (.cont ca sa)) ::ₘ (sa, .seq (ka.map HT.root)) ::ₘ (strBlock na + Ra)), by rw [ha, hta]; blocks⟩
    have hkb : ∃ Q, M = blocksL kb + Q := ⟨((b, .elem (nb.map (·.1)) (.cont cb sb)) ::ₘ (sb, .seq (kb.map HT.root)) ::ₘ (strBlock nb + Rb)), by rw [hb, htb]; blocks⟩
    obtain ⟨Qa, hQa⟩ := hka
    obtain ⟨Qb, hQb⟩ := hkb
    simp only [merge, hca, hcb, Option.bind_eq_bind, Option.bind_some]
    rw [hta, htb] at he
    cases ca <;> cases cb
    · -- object, object
      simp only [HT.elem, Json.merge, Option.bind_eq_some_iff, Option.map_eq_some_iff] at he
      obtain ⟨r, hr, out, ho, rfl⟩ := he
      have hcp : Json.copy rt ta.elem = some (.cont none .object r) := by rw [hta]; exact copy_object_shape hr
      obtain ⟨h1, t1, e1, v1, l1, i1⟩ := copy_ok rt ta h Ra _ (hI.congr ha) hcp
      obtain ⟨d, nd, sd, kd, rfl, hkd, hnd⟩ := cont_of_elem l1
      rw [← ha, hQb] at i1
      obtain ⟨h2, acc, e2, v2, l2, i2⟩ := copyIntoObject_ok kb (fun t _ => copy_ok rt t) h1 kd Qb out v1 i1 (by rw [hkd]; exact ho)
      rw [← hQb] at i2
      refine ⟨h2, .cont d nd .object sd acc, ?_, v2, by simp only [HT.elem, l2, hnd], i2⟩
      simp only [HT.root] at e1
      simp only [e1, Option.bind_some, e2, HT.root]
    · -- object, array
      simp only [HT.elem, Json.merge, Option.bind_eq_some_iff, Option.map_eq_some_iff] at he
      obtain ⟨r, hr, out, ho, rfl⟩ := he
      have hcp : Json.copy rt ta.elem = some (.cont none .object r) := by rw [hta]; exact copy_object_shape hr
      obtain ⟨h1, t1, e1, v1, l1, i1⟩ := copy_ok rt ta h Ra _ (hI.congr ha) hcp
      obtain ⟨d, nd, sd, kd, rfl, hkd, hnd⟩ := cont_of_elem l1
      rw [← ha, hQb] at i1
      obtain ⟨h2, acc, e2, v2, l2, i2⟩ := mergeArrayLoop_ok kb 0 h1 kd Qb out v1 i1 (by rw [hkd]; exact ho)
      rw [← hQb] at i2
      refine ⟨h2, .cont d nd .object sd acc, ?_, v2, by simp only [HT.elem, l2, hnd], i2⟩
      simp only [HT.root] at e1
      simp only [e1, Option.bind_some, e2, HT.root]
    · -- array, object
      simp only [HT.elem, Json.merge, Option.bind_eq_some_iff, Option.map_eq_some_iff] at he
      obtain ⟨r, hr, out, ho, rfl⟩ := he
      have hcp : Json.copy rt tb.elem = some (.cont none .object r) := by rw [htb]; exact copy_object_shape hr
      obtain ⟨h1, t1, e1, v1, l1, i1⟩ := copy_ok rt tb h Rb _ (hI.congr hb) hcp
      obtain ⟨d, nd, sd, kd, rfl, hkd, hnd⟩ := cont_of_elem l1
      rw [← hb, hQa] at i1
      obtain ⟨h2, acc, e2, v2, l2, i2⟩ := mergeArrayLoop_ok ka 0 h1 kd Qa out v1 i1 (by rw [hkd]; exact ho)
      rw [← hQa] at i2
      refine ⟨h2, .cont d nd .object sd acc, ?_, v2, by simp only [HT.elem, l2, hnd], i2⟩
      simp only [HT.root] at e1
      simp only [e1, Option.bind_some, e2, HT.root]
    · -- array, array
      simp only [HT.elem, Json.merge, mergeArrays, Option.bind_eq_some_iff, Option.map_eq_some_iff] at he
      obtain ⟨r, hr, out, ho, rfl⟩ := he
      obtain ⟨s', i0⟩ := createContainer_ok hI .array
      rw [hQa] at i0
      obtain ⟨h1, acc1, e1, v1, l1, i1⟩ := copyIntoArray_ok ka (fun t _ => copy_ok rt t) _ [] Qa r trivial i0 hr
      rw [← hQa, hQb] at i1
      obtain ⟨h2, acc2, e2, v2, l2, i2⟩ := copyIntoArray_ok kb (fun t _ => copy_ok rt t) h1 acc1 Qb out v1 i1 (by rw [l1]; exact ho)
      rw [← hQb] at i2
      refine ⟨h2, .cont (createContainer h .array).1 none .array s' acc2, ?_, v2, by simp only [HT.elem, l2]; rfl, i2⟩
      simp only [e1, e2, Option.bind_some, HT.root]
  cases hta : ta with
  | prim a n t p b => rw [hta] at he; simp [HT.elem, Json.merge] at he
  | cont a na ca sa ka =>
    cases htb : tb with
    | prim b n t p x => rw [hta, htb] at he; cases ca <;> simp [HT.elem, Json.merge] at he
    | cont b nb cb sb kb =>
      have := key a b na nb ca cb sa sb ka kb hta htb
      rw [hta, htb] at this
      exact this

end JsonHeap
