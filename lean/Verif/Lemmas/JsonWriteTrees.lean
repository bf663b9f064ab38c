import Verif.Lemmas.JsonWriteApart
/-! # Trees in memory of which neither is inside the other -/
namespace JsonHeap
open Json JsonHeapSpec JsonThreadSpec

/-! ## Replacing a part of a tree -/

/-- Another tree at a place. -/
def HT.replace : HT → List Nat → HT → HT
  | _, [], u => u
  | .prim a n t p b, _ :: _, _ => .prim a n t p b
  | .cont a nm ct s ks, i :: p, u => .cont a nm ct s (match ks[i]? with | some k => ks.set i (k.replace p u) | none => ks)

theorem HT.at_nil (t : HT) : t.at [] = some t := by cases t <;> simp [HT.at]
theorem HT.replace_nil (t u : HT) : t.replace [] u = u := by cases t <;> simp [HT.replace]

theorem replace_ok : ∀ (p : List Nat) (t u : HT), t.at p = some u → (t.Valid → u.Valid) ∧ ∃ C, t.blocks = u.blocks + C ∧ ∀ u' : HT, u'.root = u.root → (t.replace p u').root = t.root ∧ (t.replace p u').blocks = u'.blocks + C ∧ (t.Valid → u'.Valid → (t.replace p u').Valid) := by
  intro p
  induction p with
  | nil =>
    intro t u h
    rw [HT.at_nil] at h
    cases h
    exact ⟨id, 0, by simp, fun u' hr => by rw [HT.replace_nil]; exact ⟨hr, by simp, fun _ h => h⟩⟩
  | cons i p ih =>
    intro t u h
    cases t with
    | prim => simp [HT.at] at h
    | cont a nm ct s ks =>
      simp only [HT.at, Option.bind_eq_some_iff] at h
      obtain ⟨k, hk, h⟩ := h
      obtain ⟨h2, C, h1, h3⟩ := ih k u h
      obtain ⟨D, d1, d2⟩ := blocksL_set hk
      have hmem : k ∈ ks := List.mem_of_getElem? hk
      refine ⟨fun hv => ?_, (a, .elem (nm.map (·.1)) (.cont ct s)) ::ₘ (s, .seq (ks.map HT.root)) ::ₘ (strBlock nm + (C + D)), ?_, fun u' hr => ?_⟩
      · simp only [HT.Valid, validL_iff] at hv
        exact h2 (hv k hmem)
      · simp only [HT.blocks, d1, h1, ← Multiset.singleton_add]; abel
      · obtain ⟨r1, r2, r3⟩ := h3 u' hr
        simp only [HT.replace, hk]
        refine ⟨rfl, ?_, fun hv hu' => ?_⟩
        · simp only [HT.blocks, d2, r2, set_map_same HT.root hk r1, ← Multiset.singleton_add]; abel
        · simp only [HT.Valid, validL_iff] at hv ⊢
          intro x hx
          rcases List.mem_or_eq_of_mem_set hx with hx | rfl
          · exact hv x hx
          · exact r3 (hv k hmem) hu'

theorem replace_at : ∀ (p q : List Nat) (t u w : HT), ¬ p <+: q → ¬ q <+: p → t.at q = some w → (t.replace p u).at q = some w := by
  intro p
  induction p with
  | nil => intro q t u w h; exact absurd (List.nil_prefix) h
  | cons i p ih =>
    intro q t u w h1 h2 hq
    cases q with
    | nil => exact absurd (List.nil_prefix) h2
    | cons j q =>
      cases t with
      | prim => simp [HT.at] at hq
      | cont a nm ct s ks =>
        simp only [HT.at, Option.bind_eq_some_iff] at hq
        obtain ⟨k, hk, hq⟩ := hq
        simp only [HT.replace]
        cases hi : ks[i]? with
        | none => simp only [HT.at, hk, Option.bind_some, hq]
        | some k0 =>
          simp only [HT.at]
          by_cases e : i = j
          · subst e
            rw [hk] at hi
            cases hi
            rw [List.getElem?_set_self (List.getElem?_eq_some_iff.mp hk).1, Option.bind_some]
            exact ih q k u w (fun hp => h1 (List.cons_prefix_cons.mpr ⟨rfl, hp⟩)) (fun hp => h2 (List.cons_prefix_cons.mpr ⟨rfl, hp⟩)) hq
          · rw [List.getElem?_set_ne e, hk, Option.bind_some, hq]

theorem kid_le {ks : List HT} {i : Nat} {k : HT} (hk : ks[i]? = some k) : k.blocks ≤ blocksL ks := by
  obtain ⟨D, d1, _⟩ := blocksL_set hk
  rw [d1]
  exact Multiset.le_add_right _ _

theorem kids_le {i j : Nat} {k l : HT} : ∀ {ks : List HT}, i ≠ j → ks[i]? = some k → ks[j]? = some l → k.blocks + l.blocks ≤ blocksL ks := by
  intro ks
  induction ks generalizing i j with
  | nil => intro _ h; simp at h
  | cons x ks ih =>
    intro hij hi hj
    simp only [blocksL]
    cases i with
    | zero =>
      cases j with
      | zero => exact absurd rfl hij
      | succ j =>
        simp only [List.getElem?_cons_zero, Option.some.injEq] at hi
        simp only [List.getElem?_cons_succ] at hj
        subst hi
        exact add_le_add le_rfl (kid_le hj)
    | succ i =>
      cases j with
      | zero =>
        simp only [List.getElem?_cons_zero, Option.some.injEq] at hj
        simp only [List.getElem?_cons_succ] at hi
        subst hj
        rw [add_comm k.blocks]
        exact add_le_add le_rfl (kid_le hi)
      | succ j => exact (ih (by omega) hi hj).trans (Multiset.le_add_left _ _)

theorem kids_in {a : Nat} {nm : Option (Nat × Bytes)} {ct : CType} {s : Nat} {ks : List HT} : blocksL ks ≤ (HT.cont a nm ct s ks).blocks := by
  simp only [HT.blocks]
  exact (Multiset.le_add_left _ _).trans ((Multiset.le_cons_self _ _).trans (Multiset.le_cons_self _ _))

theorem at_le {p : List Nat} {t u : HT} (h : t.at p = some u) : u.blocks ≤ t.blocks := by
  obtain ⟨_, C, e, _⟩ := replace_ok p t u h
  rw [e]
  exact Multiset.le_add_right _ _

theorem at_apart : ∀ (p q : List Nat) (t u w : HT), ¬ p <+: q → ¬ q <+: p → t.at p = some u → t.at q = some w → u.blocks + w.blocks ≤ t.blocks := by
  intro p
  induction p with
  | nil => intro q t u w h; exact absurd (List.nil_prefix) h
  | cons i p ih =>
    intro q t u w h1 h2 hp hq
    cases q with
    | nil => exact absurd (List.nil_prefix) h2
    | cons j q =>
      cases t with
      | prim => simp [HT.at] at hq
      | cont a nm ct s ks =>
        simp only [HT.at, Option.bind_eq_some_iff] at hp hq
        obtain ⟨k, hk, hp⟩ := hp
        obtain ⟨l, hl, hq⟩ := hq
        refine le_trans ?_ kids_in
        by_cases e : i = j
        · subst e
          rw [hk] at hl
          cases hl
          exact (ih q k u w (fun hp => h1 (List.cons_prefix_cons.mpr ⟨rfl, hp⟩)) (fun hp => h2 (List.cons_prefix_cons.mpr ⟨rfl, hp⟩)) hp hq).trans (kid_le hk)
        · exact (add_le_add (at_le hp) (at_le hq)).trans (kids_le e hk hl)

/-! ## Trees of variables -/

/-- The tree of a target. -/
def Located (ts : List (Option HT)) (x : Target) (u : HT) : Prop := ∃ t, ts[x.var]? = some (some t) ∧ t.at x.path = some u

theorem located_apart {ts : List (Option HT)} {x y : Target} {u w : HT} (ha : JsonThreadSpec.Apart x y) (hx : Located ts x u) (hy : Located ts y w) : u.blocks + w.blocks ≤ varBlocks ts := by
  obtain ⟨t, ht, hu⟩ := hx
  obtain ⟨t', ht', hw⟩ := hy
  by_cases hv : x.var = y.var
  · rcases ha with h | ⟨h1, h2⟩
    · exact absurd hv h
    · rw [← hv, ht] at ht'
      cases ht'
      rw [(varBlocks_take ht).1]
      exact (at_apart _ _ t u w h1 h2 hu hw).trans (Multiset.le_add_right _ _)
  · rw [(varBlocks_take ht).1]
    have ht2 : (ts.set x.var none)[y.var]? = some (some t') := by rw [List.getElem?_set_ne hv]; exact ht'
    rw [(varBlocks_take ht2).1]
    exact add_le_add (at_le hu) ((at_le hw).trans (Multiset.le_add_right _ _))

theorem Rel.located {st : State} {vs : Vals} {ts : List (Option HT)} (hr : Rel st vs ts) {x : Target} {e : Elem} (hx : JsonHeapSpec.value vs x = some e) : ∃ u, Located ts x u ∧ u.elem = e := by
  unfold JsonHeapSpec.value at hx
  split at hx
  · rename_i e0 he0
    obtain ⟨t, ht, hte, hv⟩ := hr.var he0
    rw [← hte] at hx
    obtain ⟨u, hat, hu⟩ := at_of_sub x.path t e hx
    exact ⟨u, ⟨t, ht, hat⟩, hu⟩
  · cases hx

theorem Rel.at_pointer {st : State} {vs : Vals} {ts : List (Option HT)} (hr : Rel st vs ts) {x : Target} {u : HT} (hx : Located ts x u) : pointer st x = some u.root ∧ u.Valid := by
  obtain ⟨t, ht, hat⟩ := hx
  have hv : st.vars[x.var]? = some (some t.root) := by rw [hr.vars, List.getElem?_map, ht]; rfl
  refine ⟨?_, (replace_ok x.path t u hat).1 (hr.valid t (List.mem_of_getElem? ht))⟩
  simp only [pointer, hv]
  exact resolve_ok x.path t u (hr.has ht) hat

theorem Rel.replace {st : State} {vs : Vals} {ts : List (Option HT)} (hr : Rel st vs ts) {x : Target} {u : HT} (hx : Located ts x u) :
    ∃ C, varBlocks ts = u.blocks + C ∧ ∀ u' : HT, u'.root = u.root → u'.Valid → ∀ h', Is h' (u'.blocks + C) → ∃ vs' ts', Rel ⟨h', st.vars⟩ vs' ts' ∧ ∀ y w, JsonThreadSpec.Apart x y → Located ts y w → Located ts' y w := by
  obtain ⟨t, ht, hat⟩ := hx
  obtain ⟨_, C, c1, c2⟩ := replace_ok x.path t u hat
  refine ⟨C + varBlocks (ts.set x.var none), by rw [(varBlocks_take ht).1, c1]; abel, fun u' hroot hv h' hI => ?_⟩
  obtain ⟨r1, r2, r3⟩ := c2 u' hroot
  refine ⟨_, ts.set x.var (some (t.replace x.path u')), hr.setVar ht r1 (r3 (hr.valid t (List.mem_of_getElem? ht)) hv) (hI.congr ?_), fun y w ha hy => ?_⟩
  · rw [(varBlocks_take ht).2, r2]; abel
  · obtain ⟨t', ht', hw⟩ := hy
    by_cases hxy : x.var = y.var
    · rcases ha with h | ⟨h1, h2⟩
      · exact absurd hxy h
      · rw [← hxy, ht] at ht'
        cases ht'
        refine ⟨t.replace x.path u', ?_, replace_at _ _ t u' w h1 h2 hw⟩
        rw [← hxy, List.getElem?_set_self (List.getElem?_eq_some_iff.mp ht).1]
    · exact ⟨t', by rw [List.getElem?_set_ne hxy]; exact ht', hw⟩

/-! ## The memory of a tree alone -/

def restrict (H : Heap) (m : Blocks) : Heap := ⟨fun a => if a ∈ m.map Prod.fst then H.cell a else none, H.next⟩

theorem restrict_part (H : Heap) (m : Blocks) : Part (restrict H m) H := by
  refine ⟨fun a c h => ?_, rfl⟩
  simp only [restrict] at h
  split at h
  · exact h
  · cases h

theorem restrict_none {H : Heap} {m C : Blocks} (hI : Is H (m + C)) (a : Nat) : (restrict H m).cell a = none ↔ a ∉ m.map Prod.fst := by
  simp only [restrict]
  split
  · rename_i h
    obtain ⟨⟨b, c⟩, hm, rfl⟩ := Multiset.mem_map.mp h
    have := (hI.mem b c).mpr (Multiset.mem_add.mpr (.inl hm))
    simp [this, h]
  · rename_i h; simp [h]

theorem restrict_is {H : Heap} {m C : Blocks} (hI : Is H (m + C)) : Is (restrict H m) m := by
  have hn := hI.nodup
  rw [Multiset.map_add, Multiset.nodup_add] at hn
  refine ⟨hn.1, fun a c => ⟨fun h => ?_, fun h => ?_⟩, fun p hp => hI.lt p (Multiset.mem_add.mpr (.inl hp))⟩
  · simp only [restrict] at h
    split at h
    · rename_i ha
      rcases Multiset.mem_add.mp ((hI.mem a c).mp h) with hm | hm
      · exact hm
      · exact absurd (Multiset.mem_map_of_mem Prod.fst hm) (Multiset.disjoint_left.mp hn.2.2 ha)
    · cases h
  · simp only [restrict]
    rw [if_pos (Multiset.mem_map_of_mem Prod.fst h)]
    exact (hI.mem a c).mpr (Multiset.mem_add.mpr (.inl h))

theorem restrict_apart {H : Heap} {m k M : Blocks} (hI : Is H M) (hle : m + k ≤ M) (a : Nat) : (restrict H m).cell a = none ∨ (restrict H k).cell a = none := by
  obtain ⟨R, rfl⟩ := Multiset.le_iff_exists_add.mp hle
  have hn := hI.nodup
  rw [Multiset.map_add, Multiset.map_add, Multiset.nodup_add, Multiset.nodup_add] at hn
  by_cases ha : a ∈ m.map Prod.fst
  · right
    simp only [restrict]
    rw [if_neg (Multiset.disjoint_left.mp hn.1.2.2 ha)]
  · left
    simp only [restrict]
    rw [if_neg ha]

end JsonHeap
