import Verif.Lemmas.JsonHeapCopy
import Verif.Spec.JsonHeap
/-! # C133: memory of the JSON elements -/
namespace JsonHeap
open Json JsonHeapSpec

/-! ## Paths -/

def HT.at : HT → List Nat → Option HT
  | t, [] => some t
  | .prim .., _ :: _ => none
  | .cont _ _ _ _ ks, i :: p => ks[i]?.bind fun k => k.at p

theorem at_of_sub : ∀ (p : List Nat) (t : HT) (e : Elem), sub t.elem p = some e → ∃ u, t.at p = some u ∧ u.elem = e := by
  intro p
  induction p with
  | nil =>
    intro t e h
    have : sub t.elem [] = some t.elem := by cases t <;> simp [HT.elem, sub]
    rw [this] at h
    exact ⟨t, by cases t <;> simp [HT.at], by simpa using h⟩
  | cons i p ih =>
    intro t e h
    cases t with
    | prim => simp [HT.elem, sub] at h
    | cont a nm ct s ks =>
      simp only [HT.elem, sub, elems_eq, List.getElem?_map, Option.bind_eq_some_iff, Option.map_eq_some_iff] at h
      obtain ⟨_, ⟨k, hk, rfl⟩, h⟩ := h
      obtain ⟨u, h1, h2⟩ := ih k e h
      exact ⟨u, by simp [HT.at, hk, h1], h2⟩

theorem sub_of_at : ∀ (p : List Nat) (t u : HT), t.at p = some u → sub t.elem p = some u.elem := by
  intro p
  induction p with
  | nil =>
    intro t u h
    have : u = t := by cases t <;> simp [HT.at] at h <;> exact h.symm
    subst this
    cases u <;> simp [HT.elem, sub]
  | cons i p ih =>
    intro t u h
    cases t with
    | prim => simp [HT.at] at h
    | cont a nm ct s ks =>
      simp only [HT.at, Option.bind_eq_some_iff] at h
      obtain ⟨k, hk, h⟩ := h
      simp only [HT.elem, sub, elems_eq, List.getElem?_map, hk, Option.map_some, Option.bind_some]
      exact ih k u h

theorem at_of_modify (f : Elem → Option Elem) : ∀ (p : List Nat) (t : HT) (e : Elem), modifyAt f t.elem p = some e → ∃ u e', t.at p = some u ∧ f u.elem = some e' := by
  intro p
  induction p with
  | nil =>
    intro t e h
    have : modifyAt f t.elem [] = f t.elem := by cases t <;> simp [HT.elem, modifyAt]
    rw [this] at h
    exact ⟨t, e, by cases t <;> simp [HT.at], h⟩
  | cons i p ih =>
    intro t e h
    cases t with
    | prim => simp [HT.elem, modifyAt] at h
    | cont a nm ct s ks =>
      simp only [HT.elem, modifyAt, elems_eq, List.getElem?_map, Option.bind_eq_some_iff, Option.map_eq_some_iff] at h
      obtain ⟨_, ⟨k, hk, rfl⟩, e', h, _⟩ := h
      obtain ⟨u, e'', h1, h2⟩ := ih k e' h
      exact ⟨u, e'', by simp [HT.at, hk, h1], h2⟩

theorem blocksL_set {ks : List HT} {i : Nat} {k : HT} (hk : ks[i]? = some k) : ∃ C, blocksL ks = k.blocks + C ∧ ∀ k', blocksL (ks.set i k') = k'.blocks + C := by
  induction ks generalizing i with
  | nil => simp at hk
  | cons x xs ih =>
    cases i with
    | zero =>
      simp only [List.getElem?_cons_zero, Option.some.injEq] at hk
      subst hk
      exact ⟨blocksL xs, rfl, fun k' => by simp [blocksL]⟩
    | succ i =>
      simp only [List.getElem?_cons_succ] at hk
      obtain ⟨C, h1, h2⟩ := ih hk
      refine ⟨x.blocks + C, by simp only [blocksL, h1]; abel, fun k' => by simp only [List.set_cons_succ, blocksL, h2]; abel⟩

theorem set_map_same {α β : Type} (f : α → β) {l : List α} {i : Nat} {x y : α} (h : l[i]? = some x) (e : f y = f x) : (l.set i y).map f = l.map f := by
  obtain ⟨hi, hx⟩ := List.getElem?_eq_some_iff.mp h
  rw [List.map_set, e]
  refine List.ext_getElem? fun j => ?_
  rw [List.getElem?_set]
  split
  · rename_i hj; subst hj; simp [hi, hx]
  · rfl

theorem focus : ∀ (p : List Nat) (t u : HT), t.at p = some u → ∃ C, t.blocks = u.blocks + C ∧ (t.Valid → u.Valid) ∧ ∀ u' : HT, u'.root = u.root → ∃ t' : HT, t'.root = t.root ∧ t'.blocks = u'.blocks + C ∧
    (t.Valid → u'.Valid → t'.Valid) ∧ ∀ f, f u.elem = some u'.elem → modifyAt f t.elem p = some t'.elem := by
  intro p
  induction p with
  | nil =>
    intro t u h
    have : u = t := by cases t <;> simp [HT.at] at h <;> exact h.symm
    subst this
    refine ⟨0, by simp, id, fun u' hr => ⟨u', hr, by simp, fun _ h => h, fun f hf => ?_⟩⟩
    have : modifyAt f u.elem [] = f u.elem := by cases u <;> simp [HT.elem, modifyAt]
    rw [this, hf]
  | cons i p ih =>
    intro t u h
    cases t with
    | prim => simp [HT.at] at h
    | cont a nm ct s ks =>
      simp only [HT.at, Option.bind_eq_some_iff] at h
      obtain ⟨k, hk, h⟩ := h
      obtain ⟨C, h1, h2, h3⟩ := ih k u h
      obtain ⟨D, d1, d2⟩ := blocksL_set hk
      have hmem : k ∈ ks := List.mem_of_getElem? hk
      refine ⟨(a, .elem (nm.map (·.1)) (.cont ct s)) ::ₘ (s, .seq (ks.map HT.root)) ::ₘ (strBlock nm + (C + D)), ?_, ?_, ?_⟩
      · simp only [HT.blocks, d1, h1, ← Multiset.singleton_add]; abel
      · intro hv
        simp only [HT.Valid, validL_iff] at hv
        exact h2 (hv k hmem)
      · intro u' hr
        obtain ⟨k', r1, r2, r3, r4⟩ := h3 u' hr
        refine ⟨.cont a nm ct s (ks.set i k'), rfl, ?_, ?_, ?_⟩
        · simp only [HT.blocks, d2, r2, set_map_same HT.root hk r1, ← Multiset.singleton_add]; abel
        · intro hv hu'
          simp only [HT.Valid, validL_iff] at hv ⊢
          intro x hx
          rcases List.mem_or_eq_of_mem_set hx with hx | rfl
          · exact hv x hx
          · exact r3 (hv k hmem) hu'
        · intro f hf
          simp only [HT.elem, modifyAt, elems_eq, List.getElem?_map, hk, Option.map_some, Option.bind_some, r4 f hf, List.map_set]

theorem resolve_ok {h : Heap} : ∀ (p : List Nat) (t u : HT), Has h t.blocks → t.at p = some u → resolve h t.root p = some u.root := by
  intro p
  induction p with
  | nil =>
    intro t u _ hu
    have : u = t := by cases t <;> simp [HT.at] at hu <;> exact hu.symm
    subst this
    rfl
  | cons i p ih =>
    intro t u hH hu
    cases t with
    | prim => simp [HT.at] at hu
    | cont a nm ct s ks =>
      simp only [HT.at, Option.bind_eq_some_iff] at hu
      obtain ⟨k, hk, hu⟩ := hu
      have hHk : Has h k.blocks := by
        obtain ⟨D, d1, _⟩ := blocksL_set hk
        intro x hx
        exact hH x (by simp only [HT.blocks, Multiset.mem_cons, Multiset.mem_add, d1]; exact .inr (.inr (.inr (.inl hx))))
      simp only [resolve, HT.root, container_ok hH, Option.bind_eq_bind, Option.bind_some, List.getElem?_map, hk, Option.map_some]
      exact ih k u hHk hu

/-! ## Variables -/

def varBlocks : List (Option HT) → Blocks
  | [] => 0
  | none :: r => varBlocks r
  | some t :: r => t.blocks + varBlocks r

theorem varBlocks_append (xs ys : List (Option HT)) : varBlocks (xs ++ ys) = varBlocks xs + varBlocks ys := by
  induction xs with
  | nil => simp [varBlocks]
  | cons o xs ih => cases o <;> simp only [List.cons_append, varBlocks, ih]; abel

theorem varBlocks_take {ts : List (Option HT)} {y : Nat} {t : HT} (h : ts[y]? = some (some t)) : varBlocks ts = t.blocks + varBlocks (ts.set y none) ∧
    ∀ t', varBlocks (ts.set y (some t')) = t'.blocks + varBlocks (ts.set y none) := by
  induction ts generalizing y with
  | nil => simp at h
  | cons o r ih =>
    cases y with
    | zero =>
      simp only [List.getElem?_cons_zero, Option.some.injEq] at h
      subst h
      exact ⟨rfl, fun t' => rfl⟩
    | succ y =>
      simp only [List.getElem?_cons_succ] at h
      obtain ⟨h1, h2⟩ := ih h
      cases o with
      | none => exact ⟨h1, h2⟩
      | some x =>
        refine ⟨?_, fun t' => ?_⟩
        · simp only [varBlocks, List.set_cons_succ, h1]; abel
        · simp only [varBlocks, List.set_cons_succ, h2]; abel

/-- The heap is made of the trees of the variables, and these have those values. -/
structure Rel (st : State) (vs : Vals) (ts : List (Option HT)) : Prop where
  vars : st.vars = ts.map (Option.map HT.root)
  vals : vs = ts.map (Option.map HT.elem)
  valid : ∀ t, some t ∈ ts → t.Valid
  is : Is st.heap (varBlocks ts)

theorem Rel.var {st : State} {vs : Vals} {ts : List (Option HT)} (hr : Rel st vs ts) {y : Nat} {e : Elem} (h : vs[y]? = some (some e)) : ∃ t, ts[y]? = some (some t) ∧ t.elem = e ∧ st.vars[y]? = some (some t.root) := by
  rw [hr.vals, List.getElem?_map, Option.map_eq_some_iff] at h
  obtain ⟨o, ho, h⟩ := h
  cases o with
  | none => simp at h
  | some t => exact ⟨t, ho, by simpa using h, by rw [hr.vars, List.getElem?_map, ho]; rfl⟩

theorem Rel.has {st : State} {vs : Vals} {ts : List (Option HT)} (hr : Rel st vs ts) {y : Nat} {t : HT} (h : ts[y]? = some (some t)) : Has st.heap t.blocks :=
  hr.is.has (by rw [(varBlocks_take h).1]; exact sub_left)

/-- A variable that has been set to a new tree. -/
theorem Rel.setVar {st : State} {vs : Vals} {ts : List (Option HT)} (hr : Rel st vs ts) {y : Nat} {t t' : HT} (h : ts[y]? = some (some t)) (hroot : t'.root = t.root) (hv : t'.Valid) {h' : Heap}
    (hI : Is h' (varBlocks (ts.set y (some t')))) : Rel ⟨h', st.vars⟩ (vs.set y (some t'.elem)) (ts.set y (some t')) := by
  refine ⟨?_, ?_, ?_, hI⟩
  · rw [set_map_same _ h (by simp [hroot])]; exact hr.vars
  · rw [hr.vals, List.map_set]; rfl
  · intro u hu
    rcases List.mem_or_eq_of_mem_set hu with hu | hu
    · exact hr.valid u hu
    · cases hu; exact hv

theorem Rel.push {st : State} {vs : Vals} {ts : List (Option HT)} (hr : Rel st vs ts) {h' : Heap} {o : Option HT} (hv : ∀ t, o = some t → t.Valid) (hI : Is h' (varBlocks [o] + varBlocks ts)) :
    Rel ⟨h', st.vars ++ [o.map HT.root]⟩ (vs ++ [o.map HT.elem]) (ts ++ [o]) := by
  refine ⟨by rw [hr.vars]; simp, by rw [hr.vals]; simp, ?_, hI.congr (by rw [varBlocks_append]; abel)⟩
  intro t ht
  simp only [List.mem_append, List.mem_singleton] at ht
  rcases ht with ht | ht
  · exact hr.valid t ht
  · exact hv t ht.symm

/-- A target whose value can be replaced: the pointer leads to the tree, and putting another tree at the same address there updates the value. -/
theorem Rel.target {st : State} {vs vs' : Vals} {ts : List (Option HT)} (hr : Rel st vs ts) {x : Target} {f : Elem → Option Elem} (hu : update vs x f = some vs') :
    ∃ (u : HT) (C : Blocks) (e : Elem), pointer st x = some u.root ∧ f u.elem = some e ∧ u.Valid ∧ varBlocks ts = u.blocks + C ∧
      JsonHeapSpec.value vs x = some u.elem ∧
      ∀ u' : HT, u'.root = u.root → u'.elem = e → u'.Valid → ∃ ts', varBlocks ts' = u'.blocks + C ∧ ∀ h', Is h' (u'.blocks + C) → Rel ⟨h', st.vars⟩ vs' ts' := by
  unfold update at hu
  split at hu
  · rename_i e0 he0
    obtain ⟨t, ht, hte, hv⟩ := hr.var he0
    simp only [Option.map_eq_some_iff] at hu
    obtain ⟨e1, he1, rfl⟩ := hu
    rw [← hte] at he1
    obtain ⟨u, e2, hat, hf⟩ := at_of_modify f x.path t e1 he1
    obtain ⟨C, c1, c2, c3⟩ := focus x.path t u hat
    have hvt := hr.valid t (List.mem_of_getElem? ht)
    refine ⟨u, C + varBlocks (ts.set x.var none), e2, ?_, hf, c2 hvt, ?_, ?_, ?_⟩
    · simp only [pointer, hv]
      exact resolve_ok x.path t u (hr.has ht) hat
    · rw [(varBlocks_take ht).1, c1]; abel
    · simp only [JsonHeapSpec.value, he0, ← hte]
      exact sub_of_at x.path t u hat
    · intro u' hroot he hv'
      obtain ⟨t', r1, r2, r3, r4⟩ := c3 u' hroot
      have hm := r4 f (by rw [hf, he])
      rw [he1] at hm
      have hm' : e1 = t'.elem := by simpa using hm
      rw [hm']
      have heq : varBlocks (ts.set x.var (some t')) = u'.blocks + (C + varBlocks (ts.set x.var none)) := by rw [(varBlocks_take ht).2, r2]; abel
      exact ⟨_, heq, fun h' hI => hr.setVar ht r1 (r3 hvt hv') (hI.congr heq.symm)⟩
  · cases hu

theorem Rel.value {st : State} {vs : Vals} {ts : List (Option HT)} (hr : Rel st vs ts) {x : Target} {e : Elem} (hx : JsonHeapSpec.value vs x = some e) :
    ∃ (u : HT) (C : Blocks), pointer st x = some u.root ∧ u.elem = e ∧ varBlocks ts = u.blocks + C := by
  unfold JsonHeapSpec.value at hx
  split at hx
  · rename_i e0 he0
    obtain ⟨t, ht, hte, hv⟩ := hr.var he0
    rw [← hte] at hx
    obtain ⟨u, hat, hu⟩ := at_of_sub x.path t e hx
    obtain ⟨C, c1, _⟩ := focus x.path t u hat
    refine ⟨u, C + varBlocks (ts.set x.var none), ?_, hu, ?_⟩
    · simp only [pointer, hv]
      exact resolve_ok x.path t u (hr.has ht) hat
    · rw [(varBlocks_take ht).1, c1]; abel
  · cases hx

/-- Giving a variable away: its tree leaves the variables. -/
theorem Rel.give {st : State} {vs vs' : Vals} {ts : List (Option HT)} (hr : Rel st vs ts) {y : Nat} {e : Elem} (ht : take vs y = some (e, vs')) :
    ∃ t : HT, pointer st ⟨y, []⟩ = some t.root ∧ t.elem = e ∧ t.Valid ∧ varBlocks ts = t.blocks + varBlocks (ts.set y none) ∧ vs' = (ts.set y none).map (Option.map HT.elem) ∧
      st.vars.set y none = (ts.set y none).map (Option.map HT.root) ∧ (∀ u, some u ∈ ts.set y none → u.Valid) ∧ ∀ x, x.var ≠ y → pointer ⟨st.heap, st.vars.set y none⟩ x = pointer st x := by
  unfold take at ht
  split at ht
  · rename_i e0 he0
    simp only [Option.some.injEq, Prod.mk.injEq] at ht
    obtain ⟨rfl, rfl⟩ := ht
    obtain ⟨t, h1, h2, h3⟩ := hr.var he0
    refine ⟨t, ?_, h2, hr.valid t (List.mem_of_getElem? h1), (varBlocks_take h1).1, by rw [hr.vals, List.map_set]; rfl, by rw [hr.vars, List.map_set]; rfl, ?_, ?_⟩
    · simp only [pointer, h3, resolve]
    · intro u hu
      rcases List.mem_or_eq_of_mem_set hu with hu | hu
      · exact hr.valid u hu
      · cases hu
    · intro x hx
      simp only [pointer, List.getElem?_set_ne (Ne.symm hx)]
  · cases ht

theorem update_var {vs vs' : Vals} {x : Target} {f : Elem → Option Elem} {y : Nat} (h : update (vs.set y none) x f = some vs') : x.var ≠ y := by
  intro hxy
  unfold update at h
  split at h
  · rename_i e he
    rw [hxy, List.getElem?_set] at he
    split at he
    · split at he <;> simp at he
    · exact absurd rfl ‹¬y = y›
  · cases h

theorem onArray_some {f : List Elem → Option (List Elem)} {e e' : Elem} (h : onArray f e = some e') : ∃ n ks ks', e = .cont n .array ks ∧ f ks = some ks' ∧ e' = .cont n .array ks' := by
  unfold onArray at h
  split at h
  · simp only [Option.map_eq_some_iff] at h
    obtain ⟨ks', h1, h2⟩ := h
    exact ⟨_, _, ks', rfl, h1, h2.symm⟩
  · cases h

theorem onObject_some {f : List Elem → Option (List Elem)} {e e' : Elem} (h : onObject f e = some e') : ∃ n ks ks', e = .cont n .object ks ∧ f ks = some ks' ∧ e' = .cont n .object ks' := by
  unfold onObject at h
  split at h
  · simp only [Option.map_eq_some_iff] at h
    obtain ⟨ks', h1, h2⟩ := h
    exact ⟨_, _, ks', rfl, h1, h2.symm⟩
  · cases h

/-- The state while an element that has been given away is not yet anywhere: the other variables. -/
theorem Rel.without {st : State} {vs vs' : Vals} {ts : List (Option HT)} (hr : Rel st vs ts) {y : Nat} {e : Elem} (hg : take vs y = some (e, vs')) {x : Target} {f : Elem → Option Elem} {vs'' : Vals}
    (hu : update vs' x f = some vs'') :
    ∃ (t u : HT) (C : Blocks) (e1 : Elem), pointer st ⟨y, []⟩ = some t.root ∧ t.elem = e ∧ t.Valid ∧ pointer st x = some u.root ∧ f u.elem = some e1 ∧ u.Valid ∧ Is st.heap (u.blocks + (t.blocks + C)) ∧
      ∀ u' : HT, u'.root = u.root → u'.elem = e1 → u'.Valid → ∃ ts', ∀ h', Is h' (u'.blocks + C) → Rel ⟨h', st.vars.set y none⟩ vs'' ts' := by
  obtain ⟨t, p1, p2, p3, p4, p5, p6, p7, p8⟩ := hr.give hg
  have hset : vs' = vs.set y none := by
    unfold take at hg
    split at hg
    · simp only [Option.some.injEq, Prod.mk.injEq] at hg; exact hg.2.symm
    · cases hg
  have hne : x.var ≠ y := update_var (by rw [← hset]; exact hu)
  -- a heap that has only the other variables
  have hI0 : Is st.heap (t.blocks + varBlocks (ts.set y none)) := hr.is.congr p4
  obtain ⟨h0, e0, i0, _⟩ := destroy_ok p3 hI0
  have hr0 : Rel ⟨h0, st.vars.set y none⟩ vs' (ts.set y none) := ⟨p6, p5, p7, i0⟩
  obtain ⟨u, C, e1, q1, q2, q3, q4, _, q5⟩ := hr0.target hu
  refine ⟨t, u, C, e1, p1, p2, p3, ?_, q2, q3, hI0.congr (by rw [q4]; abel), fun u' a b c => by obtain ⟨ts', _, h⟩ := q5 u' a b c; exact ⟨ts', h⟩⟩
  -- the pointer is found in the whole heap too
  have : pointer ⟨st.heap, st.vars.set y none⟩ x = some u.root := by
    unfold update at hu
    split at hu
    · rename_i e2 he2
      obtain ⟨w, w1, w2, w3⟩ := hr0.var he2
      simp only [Option.map_eq_some_iff] at hu
      obtain ⟨e3, he3, _⟩ := hu
      rw [← w2] at he3
      obtain ⟨v, _, hat, _⟩ := at_of_modify f x.path w e3 he3
      have hq : pointer ⟨h0, st.vars.set y none⟩ x = some v.root := by
        simp only [pointer, w3]
        exact resolve_ok x.path w v (hr0.has w1) hat
      rw [q1] at hq
      simp only [pointer, w3]
      rw [hq]
      exact resolve_ok x.path w v (hI0.has (by rw [(varBlocks_take w1).1]; exact fun a ha => Multiset.mem_add.mpr (.inr (Multiset.mem_add.mpr (.inl ha))))) hat
    · cases hu
  rw [← p8 x hne]
  exact this

theorem step_ok (rt : RealText) {st : State} {vs vs' : Vals} {ts : List (Option HT)} (hr : Rel st vs ts) (c : Cmd) (hs : valueStep rt vs c = some vs') : ∃ st' ts', step rt st c = some st' ∧ Rel st' vs' ts' := by
  have prim : ∀ (t : PType) (b : Bytes), t ≠ .null ∧ t ≠ .bool → vs' = vs ++ [some (.prim none t b)] → ∃ ts', Rel (push st (createText st.heap t b)) vs' ts' := by
    intro t b ht hv
    obtain ⟨p, hp⟩ := createText_ok hr.is t b
    rw [hv]
    exact ⟨_, hr.push (o := some (HT.prim (createText st.heap t b).1 none t (some p) b)) (fun u hu => by cases hu; simp [HT.Valid, ht]) (hp.congr (by simp [varBlocks]))⟩
  have lit : ∀ (t : PType) (b : Bytes), t = .null ∨ t = .bool → vs' = vs ++ [some (.prim none t b)] → ∃ ts', Rel (push st (createPrimitive st.heap t (.lit b))) vs' ts' := by
    intro t b ht hv
    rw [hv]
    exact ⟨_, hr.push (o := some (HT.prim (createPrimitive st.heap t (.lit b)).1 none t none b)) (fun u hu => by cases hu; simp [HT.Valid, ht]) ((createLit_ok hr.is t b).congr (by simp [varBlocks]))⟩
  have cont : ∀ (t : CType), vs' = vs ++ [some (.cont none t [])] → ∃ ts', Rel (push st (createContainer st.heap t)) vs' ts' := by
    intro t hv
    obtain ⟨s, hp⟩ := createContainer_ok hr.is t
    rw [hv]
    exact ⟨_, hr.push (o := some (HT.cont (createContainer st.heap t).1 none t s [])) (fun u hu => by cases hu; exact trivial) (hp.congr (by simp [varBlocks]))⟩
  cases c with
  | string b =>
    simp only [valueStep, Option.some.injEq] at hs
    obtain ⟨ts', h⟩ := prim .string b (by simp) hs.symm
    exact ⟨_, ts', rfl, h⟩
  | integer i =>
    simp only [valueStep, Option.some.injEq] at hs
    obtain ⟨ts', h⟩ := prim .integer _ (by simp) hs.symm
    exact ⟨_, ts', rfl, h⟩
  | real t =>
    simp only [valueStep, Option.some.injEq] at hs
    obtain ⟨ts', h⟩ := prim .real t (by simp) hs.symm
    exact ⟨_, ts', rfl, h⟩
  | bool b =>
    simp only [valueStep, Option.some.injEq] at hs
    obtain ⟨ts', h⟩ := lit .bool _ (by simp) hs.symm
    exact ⟨_, ts', rfl, h⟩
  | null =>
    simp only [valueStep, Option.some.injEq] at hs
    obtain ⟨ts', h⟩ := lit .null _ (by simp) hs.symm
    exact ⟨_, ts', rfl, h⟩
  | array =>
    simp only [valueStep, Option.some.injEq] at hs
    obtain ⟨ts', h⟩ := cont .array hs.symm
    exact ⟨_, ts', rfl, h⟩
  | object =>
    simp only [valueStep, Option.some.injEq] at hs
    obtain ⟨ts', h⟩ := cont .object hs.symm
    exact ⟨_, ts', rfl, h⟩
  | append x y =>
    simp only [valueStep, Option.bind_eq_some_iff] at hs
    obtain ⟨⟨e, vs1⟩, hg, hu⟩ := hs
    obtain ⟨t, u, C, e1, p1, p2, p3, p4, p5, p6, p7, p8⟩ := hr.without hg hu
    obtain ⟨n, ks, ks', q1, q2, q3⟩ := onArray_some p5
    obtain ⟨a, nm, s, kids, rfl, r1, r2⟩ := cont_of_elem q1
    obtain ⟨h', f1, f2⟩ := arrAppend_ok p7
    simp only [Option.some.injEq] at q2
    obtain ⟨ts', hrel⟩ := p8 (.cont a nm .array s (kids ++ [t])) rfl (by rw [q3, ← q2, HT.elem, elems_eq, List.map_append, ← elems_eq, r1, r2]; simp [p2]) (validL_append.mpr ⟨p6, p3, trivial⟩)
    exact ⟨_, ts', by simp only [step, p4, p1, Option.bind_some]; rw [show arrAppend st.heap (HT.cont a nm .array s kids).root t.root = some h' from f1]; rfl, hrel h' f2⟩
  | put x k y =>
    simp only [valueStep, Option.bind_eq_some_iff] at hs
    obtain ⟨⟨e, vs1⟩, hg, hu⟩ := hs
    obtain ⟨t, u, C, e1, p1, p2, p3, p4, p5, p6, p7, p8⟩ := hr.without hg hu
    obtain ⟨n, ks, ks', q1, q2, q3⟩ := onObject_some p5
    obtain ⟨a, nm, s, kids, rfl, r1, r2⟩ := cont_of_elem q1
    obtain ⟨h', kids', f1, f2, f3, f4⟩ := put_ok (k := .lit k) (b := k) p6 p3 (.inl rfl) p7
    simp only [Option.some.injEq] at q2
    obtain ⟨ts', hrel⟩ := p8 (.cont a nm .object s kids') rfl (by rw [q3, ← q2, HT.elem, f4, r1, r2, p2]) f3
    exact ⟨_, ts', by simp only [step, p4, p1, Option.bind_some]; rw [show JsonHeap.put st.heap (HT.cont a nm .object s kids).root (.lit k) t.root = some h' from f1]; rfl, hrel h' f2⟩
  | extend x y =>
    simp only [valueStep, Option.bind_eq_some_iff] at hs
    obtain ⟨⟨e, vs1⟩, hg, hu⟩ := hs
    split at hu
    · rename_i m ys he
      simp only at he
      obtain ⟨t, u, C, e1, p1, p2, p3, p4, p5, p6, p7, p8⟩ := hr.without hg hu
      obtain ⟨n, ks, ks', q1, q2, q3⟩ := onArray_some p5
      obtain ⟨a, nm, s, kids, rfl, r1, r2⟩ := cont_of_elem q1
      obtain ⟨b, nm', s', ykids, rfl, r3, r4⟩ := cont_of_elem (p2.trans he)
      obtain ⟨h', f1, f2⟩ := arrExtend_ok p7
      simp only [Option.some.injEq] at q2
      obtain ⟨ts', hrel⟩ := p8 (.cont a nm .array s (kids ++ ykids)) rfl (by rw [q3, ← q2, HT.elem, elems_eq, List.map_append, ← elems_eq, ← elems_eq, r1, r2, r3]) (validL_append.mpr ⟨p6, p3⟩)
      exact ⟨_, ts', by simp only [step, p4, p1, Option.bind_some]; rw [show arrExtend st.heap (HT.cont a nm .array s kids).root (HT.cont b nm' .array s' ykids).root = some h' from f1]; rfl, hrel h' f2⟩
    · cases hu
  | removeRange x i j =>
    simp only [valueStep] at hs
    obtain ⟨u, C, e1, p4, p5, p6, p7, _, p8⟩ := hr.target hs
    obtain ⟨n, ks, ks', q1, q2, q3⟩ := onArray_some p5
    obtain ⟨a, nm, s, kids, rfl, r1, r2⟩ := cont_of_elem q1
    split at q2
    · rename_i hij
      have hj : j < kids.length := by have := hij.2; rw [← r1, elems_eq, List.length_map] at this; exact this
      obtain ⟨h', f1, f2⟩ := arrRemoveRange_ok p6 i j hij.1 hj (hr.is.congr p7)
      simp only [Option.some.injEq] at q2
      obtain ⟨ts', _, hrel⟩ := p8 (.cont a nm .array s (kids.take i ++ kids.drop (j + 1))) rfl (by
        rw [q3, ← q2, HT.elem, elems_eq, List.map_append, List.map_take, List.map_drop, ← elems_eq, r1, r2]) (by
        rw [HT.Valid, validL_iff] at *
        intro z hz
        rcases List.mem_append.mp hz with hz | hz
        · exact p6 z (List.mem_of_mem_take hz)
        · exact p6 z (List.mem_of_mem_drop hz))
      exact ⟨_, ts', by simp only [step, p4, Option.bind_some]; rw [show arrRemoveRange st.heap (HT.cont a nm .array s kids).root i j = some h' from f1]; rfl, hrel h' f2⟩
    · cases q2
  | removeKey x k =>
    simp only [valueStep] at hs
    obtain ⟨u, C, e1, p4, p5, p6, p7, _, p8⟩ := hr.target hs
    obtain ⟨n, ks, ks', q1, q2, q3⟩ := onObject_some p5
    obtain ⟨a, nm, s, kids, rfl, r1, r2⟩ := cont_of_elem q1
    obtain ⟨h', kids', f1, f2, f3, f4⟩ := removeKey_ok (k := .lit k) (b := k) p6 (.inl rfl) (hr.is.congr p7)
    simp only [Option.some.injEq] at q2
    obtain ⟨ts', _, hrel⟩ := p8 (.cont a nm .object s kids') rfl (by rw [q3, ← q2, HT.elem, f4, r1, r2]) f3
    exact ⟨_, ts', by simp only [step, p4, Option.bind_some]; rw [show JsonHeap.removeKey st.heap (HT.cont a nm .object s kids).root (.lit k) = some h' from f1]; rfl, hrel h' f2⟩
  | detach x k =>
    simp only [valueStep] at hs
    split at hs
    · rename_i n0 ks0 hval
      split at hs
      · rename_i l d hd
        simp only [Option.map_eq_some_iff] at hs
        obtain ⟨vs1, hu, rfl⟩ := hs
        obtain ⟨u, C, e1, p4, p5, p6, p7, p9, p8⟩ := hr.target hu
        obtain ⟨n, ks, ks', q1, q2, q3⟩ := onObject_some p5
        obtain ⟨a, nm, s, kids, rfl, r1, r2⟩ := cont_of_elem q1
        rw [hval] at p9
        rw [q1] at p9
        simp only [Option.some.injEq, Elem.cont.injEq, true_and] at p9
        obtain ⟨_, rfl⟩ := p9
        rw [hd] at q2
        simp only [Option.map_some, Option.some.injEq] at q2
        obtain ⟨h', kids', v, f1, f2, f3, f4, f5, f6⟩ := detachKey_ok (k := .lit k) (b := k) p6 (.inl rfl) (hr.is.congr p7) (by rw [r1]; exact hd)
        obtain ⟨ts', g1, hrel⟩ := p8 (.cont a nm .object s kids') rfl (by rw [q3, ← q2, HT.elem, f5, r2]) f3
        -- the variables in a heap without the detached element
        have hI' : Is h' (optBlocks v + varBlocks ts') := f2.congr (by rw [g1]; abel)
        have hI'' : Is h' (varBlocks [v] + varBlocks ts') := hI'.congr (by cases v <;> simp [varBlocks, optBlocks])
        have hshape : ∃ h0, Rel ⟨h0, st.vars⟩ vs1 ts' := by
          cases v with
          | none => exact ⟨h', hrel h' (by rw [← g1]; simpa [optBlocks] using hI')⟩
          | some w =>
            obtain ⟨h0, _, i0, _⟩ := destroy_ok (f4 w rfl) hI'
            exact ⟨h0, hrel h0 (by rw [← g1]; exact i0)⟩
        obtain ⟨h0, hrel0⟩ := hshape
        refine ⟨⟨h', st.vars ++ [v.map HT.root]⟩, ts' ++ [v], ?_, ?_⟩
        · simp only [step, p4, Option.bind_some]
          rw [show JsonHeap.detachKey st.heap (HT.cont a nm .object s kids).root (.lit k) = some (v.map HT.root, h') from f1]
          rfl
        · rw [← f6]
          exact hrel0.push f4 hI''
      · cases hs
    · cases hs
  | reverse x =>
    simp only [valueStep] at hs
    obtain ⟨u, C, e1, p4, p5, p6, p7, _, p8⟩ := hr.target hs
    obtain ⟨n, ks, ks', q1, q2, q3⟩ := onArray_some p5
    obtain ⟨a, nm, s, kids, rfl, r1, r2⟩ := cont_of_elem q1
    obtain ⟨h', f1, f2⟩ := arrReverse_ok (hr.is.congr p7)
    simp only [Option.some.injEq] at q2
    obtain ⟨ts', _, hrel⟩ := p8 (.cont a nm .array s kids.reverse) rfl (by rw [q3, ← q2, HT.elem, elems_eq, List.map_reverse, ← elems_eq, r1, r2]) (by
      simp only [HT.Valid, validL_iff, List.mem_reverse] at *; exact p6)
    exact ⟨_, ts', by simp only [step, p4, Option.bind_some]; rw [show arrReverse st.heap (HT.cont a nm .array s kids).root = some h' from f1]; rfl, hrel h' f2⟩
  | copy x =>
    simp only [valueStep, Option.bind_eq_some_iff, Option.map_eq_some_iff] at hs
    obtain ⟨e, he, e', hc, rfl⟩ := hs
    obtain ⟨u, C, z1, z2, z3⟩ := hr.value he
    obtain ⟨h', t', f1, f2, f3, f4⟩ := copy_ok rt u st.heap C e' (hr.is.congr z3) (by rw [z2]; exact hc)
    rw [← z3] at f4
    refine ⟨push st (t'.root, h'), ts ++ [some t'], by simp only [step, z1, Option.bind_some, f1, Option.map_some], ?_⟩
    rw [← f3]
    exact hr.push (o := some t') (fun u hu => by cases hu; exact f2) (f4.congr (by simp [varBlocks]))
  | merge x y =>
    simp only [valueStep, Option.bind_eq_some_iff, Option.map_eq_some_iff] at hs
    obtain ⟨e, he, f, hf, e', hc, rfl⟩ := hs
    obtain ⟨u, C, z1, z2, z3⟩ := hr.value he
    obtain ⟨v, D, w1, w2, w3⟩ := hr.value hf
    obtain ⟨h', t', f1, f2, f3, f4⟩ := merge_ok rt hr.is z3 w3 (by rw [z2, w2]; exact hc)
    refine ⟨push st (t'.root, h'), ts ++ [some t'], by simp only [step, z1, w1, Option.bind_some, f1, Option.map_some], ?_⟩
    rw [← f3]
    exact hr.push (o := some t') (fun u hu => by cases hu; exact f2) (f4.congr (by simp [varBlocks]))
  | destroy y =>
    simp only [valueStep, Option.map_eq_some_iff] at hs
    obtain ⟨⟨e, vs1⟩, hg, rfl⟩ := hs
    obtain ⟨t, p1, p2, p3, p4, p5, p6, p7, p8⟩ := hr.give hg
    obtain ⟨h', f1, f2, _⟩ := destroy_ok p3 (hr.is.congr p4)
    exact ⟨⟨h', st.vars.set y none⟩, ts.set y none, by simp only [step, p1, Option.bind_some, f1, Option.map_some], p6, p5, p7, f2⟩

theorem run_ok (rt : RealText) : ∀ (cs : List Cmd) (st : State) (vs vs' : Vals) (ts : List (Option HT)), Rel st vs ts → runValues rt cs vs = some vs' → ∃ st' ts', run rt cs st = some st' ∧ Rel st' vs' ts' := by
  intro cs
  induction cs with
  | nil =>
    intro st vs vs' ts hr h
    simp only [runValues, Option.some.injEq] at h
    subst h
    exact ⟨st, ts, rfl, hr⟩
  | cons c cs ih =>
    intro st vs vs' ts hr h
    simp only [runValues, Option.bind_eq_some_iff] at h
    obtain ⟨vs1, h1, h2⟩ := h
    obtain ⟨st1, ts1, e1, r1⟩ := step_ok rt hr c h1
    obtain ⟨st2, ts2, e2, r2⟩ := ih st1 vs1 vs' ts1 r1 h2
    exact ⟨st2, ts2, by simp only [run, e1, Option.bind_some]; exact e2, r2⟩

/-! ## Reading -/

theorem mapM_view {n : Nat} {h : Heap} : ∀ (ks : List HT), (∀ k ∈ ks, viewN n h k.root = some k.elem) → (ks.map HT.root).mapM (viewN n h) = some (elems ks) := by
  intro ks
  induction ks with
  | nil => intro _; rfl
  | cons k ks ih =>
    intro hk
    simp only [List.map_cons, List.mapM_cons, hk k (by simp), ih (fun k h => hk k (by simp [h])), Option.bind_eq_bind, Option.bind_some, elems]
    rfl

theorem viewN_ok {h : Heap} : ∀ (n : Nat) (t : HT), t.depth ≤ n → Has h t.blocks → viewN n h t.root = some t.elem := by
  intro n
  induction n with
  | zero => intro t hd; cases t <;> simp [HT.depth] at hd
  | succ n ih =>
    intro t hd hH
    cases t with
    | prim a nm t p b =>
      have h0 : h.cell a = some (.elem (nm.map (·.1)) (.prim t (textPtr p b))) := hH (a, .elem (nm.map (·.1)) (.prim t (textPtr p b))) (by simp [HT.blocks])
      have hb : getStr h (textPtr p b) = some b := by
        cases p with
        | none => rfl
        | some q =>
          have := hH (q, .str b) (by simp [HT.blocks, strBlock])
          simp only [textPtr, getStr, this]
      cases nm with
      | none => simp only [HT.root, viewN, h0, hb, Option.map_some, Option.map_none, HT.elem]
      | some q =>
        have hq : getStr h (.at q.1) = some q.2 := hH.name rfl
        simp only [Option.map_some] at h0
        simp only [HT.root, viewN, h0, hq, hb, Option.map_some, HT.elem]
    | cont a nm ct s ks =>
      simp only [HT.depth] at hd
      have h0 : h.cell a = some (.elem (nm.map (·.1)) (.cont ct s)) := hH (a, .elem (nm.map (·.1)) (.cont ct s)) (by simp [HT.blocks])
      have h1 : h.cell s = some (.seq (ks.map HT.root)) := hH (s, .seq (ks.map HT.root)) (by simp [HT.blocks])
      have hk : ∀ k ∈ ks, viewN n h k.root = some k.elem := by
        intro k hk
        refine ih k (depthL_le.mp (by omega) k hk) ?_
        obtain ⟨i, hi⟩ := List.getElem?_of_mem hk
        obtain ⟨D, d1, _⟩ := blocksL_set hi
        intro x hx
        exact hH x (by simp only [HT.blocks, Multiset.mem_cons, Multiset.mem_add, d1]; exact .inr (.inr (.inr (.inl hx))))
      cases nm with
      | none => simp only [HT.root, viewN, h0, h1, mapM_view ks hk, Option.map_some, Option.map_none, HT.elem]
      | some q =>
        have hq : getStr h (.at q.1) = some q.2 := hH.name rfl
        simp only [Option.map_some] at h0
        simp only [HT.root, viewN, h0, hq, h1, mapM_view ks hk, Option.map_some, HT.elem]

theorem Rel.view {st : State} {vs : Vals} {ts : List (Option HT)} (hr : Rel st vs ts) : st.vars.map (Option.map (view st.heap)) = vs.map (Option.map some) := by
  rw [hr.vars, hr.vals, List.map_map, List.map_map]
  refine List.map_congr_left fun o ho => ?_
  cases o with
  | none => rfl
  | some t =>
    obtain ⟨i, hi⟩ := List.getElem?_of_mem ho
    have hI := hr.is
    rw [(varBlocks_take hi).1] at hI
    have hd := hI.depth_le
    simp only [Function.comp_apply, Option.map_some, JsonHeapSpec.view]
    rw [viewN_ok _ t (by omega) (hI.has sub_left)]

/-! ## Destroying everything -/

theorem blocksL_perm {xs ys : List HT} (h : xs.Perm ys) : blocksL xs = blocksL ys := by
  induction h with
  | nil => rfl
  | cons x _ ih => simp only [blocksL, ih]
  | swap x y l => simp only [blocksL]; abel
  | trans _ _ h1 h2 => rw [h1, h2]

theorem varBlocks_eq (ts : List (Option HT)) : varBlocks ts = blocksL (ts.filterMap id) := by
  induction ts with
  | nil => rfl
  | cons o ts ih => cases o <;> simp [varBlocks, blocksL, ih]

theorem perm_of_map {α β : Type} (f : α → β) : ∀ {l' : List β} {l : List α}, l'.Perm (l.map f) → ∃ m : List α, m.Perm l ∧ l' = m.map f := by
  intro l' l h
  generalize hr : l.map f = r at h
  induction h generalizing l with
  | nil => cases l with
    | nil => exact ⟨[], .nil, rfl⟩
    | cons => simp at hr
  | cons x _ ih =>
    cases l with
    | nil => simp at hr
    | cons a l =>
      simp only [List.map_cons, List.cons.injEq] at hr
      obtain ⟨m, h1, h2⟩ := ih hr.2
      exact ⟨a :: m, .cons a h1, by simp [h2, hr.1]⟩
  | swap x y l1 =>
    cases l with
    | nil => simp at hr
    | cons a l =>
      cases l with
      | nil => simp at hr
      | cons b l =>
        simp only [List.map_cons, List.cons.injEq] at hr
        exact ⟨b :: a :: l, .swap a b l, by simp [hr]⟩
  | trans _ _ h1 h2 =>
    obtain ⟨m, m1, rfl⟩ := h2 hr
    obtain ⟨m', m1', rfl⟩ := h1 rfl
    exact ⟨m', m1'.trans m1, rfl⟩

theorem Rel.destroyAll {st : State} {vs : Vals} {ts : List (Option HT)} (hr : Rel st vs ts) (order : List Nat) (ho : order.Perm (st.vars.filterMap id)) :
    ∃ h, order.foldlM destroy st.heap = some h ∧ ∀ a, h.cell a = none := by
  have he : st.vars.filterMap id = (ts.filterMap id).map HT.root := by
    rw [hr.vars]
    clear hr ho
    induction ts with
    | nil => rfl
    | cons o ts ih =>
      cases o with
      | none => simpa using ih
      | some t => simpa using ih
  rw [he] at ho
  obtain ⟨m, hm, rfl⟩ := perm_of_map HT.root ho
  have hv : ValidL m := by
    rw [validL_iff]
    intro k hk
    have := hm.mem_iff.mp hk
    simp only [List.mem_filterMap, id_eq, exists_eq_right] at this
    exact hr.valid k this
  obtain ⟨h, e, i, _⟩ := foldlM_destroy_ok m st.heap 0 hv (hr.is.congr (by rw [varBlocks_eq, blocksL_perm hm]; simp))
  refine ⟨h, e, fun a => ?_⟩
  cases hc : h.cell a with
  | none => rfl
  | some c => have := (i.mem a c).mp hc; simp at this

/-- Every program that creates, appends, puts, extends, removes, detaches, reverses, copies, merges and destroys JSON elements, at any depth in its trees, and means something when elements are plain values: no call touches
freed memory, frees a block twice or frees what it may not; the elements it still holds have the values the plain values would have (so copies share nothing with their originals, and giving an element away moves it);
and destroying what it still holds, in any order, leaves no block behind. -/
theorem C133_elements_behave_like_values (rt : RealText) (cs : List Cmd) (vs : Vals) (hv : runValues rt cs [] = some vs) :
    ∃ st, run rt cs start = some st ∧ st.vars.map (Option.map (view st.heap)) = vs.map (Option.map some) ∧
      ∀ order : List Nat, order.Perm (st.vars.filterMap id) → ∃ h, order.foldlM destroy st.heap = some h ∧ ∀ a, h.cell a = none := by
  have h0 : Rel start [] [] := ⟨rfl, rfl, by simp, Is.empty⟩
  obtain ⟨st, ts, e, r⟩ := run_ok rt cs start [] vs [] h0 hv
  exact ⟨st, e, r.view, r.destroyAll⟩

/-- An object {"a": 1} put under "b" in {"a": [true]}, the copy of the whole, its "a" detached and given to an array of the original, the merge of both, and the original destroyed. -/
def demoProgram : List Cmd :=
  [.object, .array, .bool true, .append ⟨1, []⟩ 2, .put ⟨0, []⟩ [97] 1, .object, .integer 1, .put ⟨3, []⟩ [97] 4, .put ⟨0, []⟩ [98] 3, .copy ⟨0, []⟩, .detach ⟨5, []⟩ [97], .append ⟨0, [0]⟩ 6,
    .merge ⟨0, []⟩ ⟨5, []⟩, .destroy 0]

example : (runValues id demoProgram []).isSome = true := by decide +kernel

/-- ... runs, and ends with an empty heap when the copy and the merged object are destroyed. -/
example : ∃ st, run id demoProgram start = some st ∧ ∀ order : List Nat, order.Perm (st.vars.filterMap id) → ∃ h, order.foldlM destroy st.heap = some h ∧ ∀ a, h.cell a = none := by
  obtain ⟨vs, hvs⟩ := Option.isSome_iff_exists.mp (show (runValues id demoProgram []).isSome = true by decide +kernel)
  obtain ⟨st, h1, _, h3⟩ := C133_elements_behave_like_values id demoProgram vs hvs
  exact ⟨st, h1, h3⟩

/-! ## Findings -/

/-- JsonObjectAppendElement frees the name of the element before it reads the key: with the element's own name as the key (moving a detached element to another object under its name), it reads freed memory,
for every object, element and name. -/
theorem C133_own_name_as_key_negated {h : Heap} {a : Nat} {nm : Option (Nat × Bytes)} {s : Nat} {ks : List HT} {t : HT} {R : Blocks} {q : Nat} {b : Bytes} (hv : ValidL ks) (hn : t.nm = some (q, b))
    (hI : Is h ((HT.cont a nm .object s ks).blocks + (t.blocks + R))) : put h a (.at q) t.root = none := by
  have hkey : KeyIn (.at q) b (t.blocks + R) := .inr ⟨q, rfl, by rw [HT.blocks_eq, hn]; simp [strBlock]⟩
  obtain ⟨h1, ks1, e1, i1, v1, l1⟩ := removeKey_ok hv hkey hI
  have hI2 : Is h1 (strBlock t.nm + ((t.root, .elem (t.nm.map (·.1)) t.body) ::ₘ (t.inner + ((HT.cont a nm .object s ks1).blocks + R)))) := i1.congr (by
    rw [HT.blocks_eq t]; simp only [← Multiset.singleton_add]; abel)
  have hg : getElem h1 t.root = some (t.nm.map (·.1), t.body) := (i1.has (m' := t.blocks) (fun x hx => by simp [hx])).elem
  obtain ⟨h2, e2, i2, _⟩ := freeMaybe_ok hI2
  obtain ⟨h3, e3, i3, _⟩ := i2.store (.elem none t.body)
  have hgone : getStr h3 (.at q) = none := by
    have hnm : ∀ c, (q, c) ∉ ((t.root, Cell.elem (t.nm.map (·.1)) t.body) ::ₘ (t.inner + ((HT.cont a nm .object s ks1).blocks + R))) := by
      rw [hn] at hI2
      exact (Is.notMem (c := .str b) (hI2.congr (by simp only [strBlock, Multiset.singleton_add, hn])))
    have : h3.cell q = none := by
      cases hc : h3.cell q with
      | none => rfl
      | some c =>
        have hm := (i3.mem q c).mp hc
        simp only [Multiset.mem_cons, Prod.mk.injEq] at hm
        rcases hm with ⟨hm, _⟩ | hm
        · refine absurd ?_ (hnm (.elem (t.nm.map (·.1)) t.body))
          rw [hm]
          exact Multiset.mem_cons_self _ _
        · exact absurd (Multiset.mem_cons_of_mem hm) (hnm c)
    simp only [getStr, this]
  simp only [put, e1, setName, hg, e2, e3, hgone, Option.bind_eq_bind, Option.bind_some, Option.bind_none]

/-- {"k": 1} and an empty object: the element is detached, and put into the other object under its name. -/
def moveHeap : Option (Heap × List (Option Nat)) :=
  (run id [.object, .integer 1, .put ⟨0, []⟩ [107] 1, .detach ⟨0, []⟩ [107], .object] start).map fun st => (st.heap, st.vars)

/-- What happens when the detached element is put under its own name and under a copy of its name: the name, whether the first call fails, whether the second returns. -/
def moveOutcome : Option (Option Bytes × Bool × Bool) :=
  match moveHeap with
  | some (h, [_, none, some e, some o]) =>
    match getElem h e with
    | some (some q, _) => some (getStr h (.at q), (put h o (.at q) e).isNone, (put h o (.lit [107]) e).isSome)
    | _ => none
  | _ => none

/-- The same on a concrete heap: the detached element is named "k"; with that very name as the key the call fails, with a copy of the name it does not. -/
theorem C133_moving_an_element_negated : moveOutcome = some (some [107], true, true) := by
  decide +kernel

/-- {"k": 1} and a new element: the outcome of replacing the child under the name read from the child itself, and under a copy of that name. -/
def replaceOutcome : Option (Option Bytes × Bool × Bool) :=
  match run id [.object, .integer 1, .put ⟨0, []⟩ [107] 1, .integer 2] start with
  | some ⟨h, [some o, none, some e]⟩ =>
    match resolve h o [0] with
    | some c =>
      match getElem h c with
      | some (some q, _) => some (getStr h (.at q), (put h o (.at q) e).isNone, (put h o (.lit [107]) e).isSome)
      | _ => none
    | none => none
  | _ => none

/-- Replacing a child of an object under the name got from the child (`JsonObjectAppendElement(o, JsonElementGetPropertyName(child), e)`): the child and its name are freed before the name is read. -/
theorem C133_replacing_a_child_negated : replaceOutcome = some (some [107], true, true) := by
  decide +kernel

end JsonHeap
