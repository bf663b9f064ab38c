import Verif.Model.ListMut
import Verif.Spec.ListMut
import Verif.Lemmas.ListOps3
/-! # Lemmas about mutable iterators -/
namespace CList
open Queue (Heap Node)

/-- Inserting a node at position `k`. -/
theorem DL.insert {α : Type} {c c' : Nat → Option (Node α)} {f t f' t' : Option Nat} {l : List (Nat × α)} {k a : Nat} {x : α}
    (h : DL c f t l) (hk : k ≤ l.length) (hfresh : ∀ p ∈ l, p.1 ≠ a)
    (hc : ∀ i (hi : i < l.length), i ≠ k → i + 1 ≠ k → c' l[i].1 = c l[i].1)
    (ha : c' a = some ⟨x, l[k]?.map (·.1), if k = 0 then none else l[k-1]?.map (·.1)⟩)
    (hp : ∀ (hk0 : k ≠ 0) n, c (l[k-1]'(by omega)).1 = some n → c' (l[k-1]'(by omega)).1 = some { n with next := some a })
    (hn : ∀ (hk1 : k < l.length) n, c l[k].1 = some n → c' l[k].1 = some { n with previous := some a })
    (hf : f' = if k = 0 then some a else f) (ht : t' = if k = l.length then some a else t) :
    DL c' f' t' (l.insertIdx k (a, x)) := by
  have hlen : (l.insertIdx k (a, x)).length = l.length + 1 := by rw [List.length_insertIdx, if_pos hk]
  refine ⟨?_, ?_, ?_, ?_⟩
  · rw [hf, h.first_eq, List.head?_eq_getElem?, List.head?_eq_getElem?, List.getElem?_insertIdx]
    by_cases h0 : k = 0
    · simp [h0]
    · rw [if_neg h0, if_pos (by omega)]
  · rw [ht, h.last_eq, List.getLast?_eq_getElem?, List.getLast?_eq_getElem?, List.getElem?_insertIdx, hlen]
    by_cases h1 : k = l.length
    · subst h1; rw [if_pos rfl, if_neg (by omega), if_pos (by omega), if_pos (by omega)]; rfl
    · rw [if_neg h1, if_neg (by omega), if_neg (by omega), show l.length + 1 - 1 - 1 = l.length - 1 by omega]
  · intro i j hi hj he
    rw [hlen] at hi hj
    have gi := List.getElem?_eq_getElem (l := l.insertIdx k (a, x)) (i := i) (by omega)
    have gj := List.getElem?_eq_getElem (l := l.insertIdx k (a, x)) (i := j) (by omega)
    generalize (l.insertIdx k (a, x))[i] = p at *
    generalize (l.insertIdx k (a, x))[j] = q at *
    rw [List.getElem?_insertIdx] at gi gj
    have old : ∀ (i : Nat) p, l[i]? = some p → ∃ h : i < l.length, l[i] = p := fun i p hh => List.getElem?_eq_some_iff.mp hh
    by_cases i1 : i < k
    · rw [if_pos i1] at gi
      obtain ⟨hi', rfl⟩ := old _ _ gi
      by_cases j1 : j < k
      · rw [if_pos j1] at gj
        obtain ⟨hj', rfl⟩ := old _ _ gj
        exact h.nodup _ _ hi' hj' he
      · rw [if_neg j1] at gj
        by_cases j2 : j = k
        · rw [if_pos j2, if_pos (by omega)] at gj
          cases gj; exact absurd he (hfresh _ (List.getElem_mem hi'))
        · rw [if_neg j2] at gj
          obtain ⟨hj', rfl⟩ := old _ _ gj
          have := h.nodup _ _ hi' hj' he; omega
    · rw [if_neg i1] at gi
      by_cases i2 : i = k
      · rw [if_pos i2, if_pos (by omega)] at gi
        cases gi
        by_cases j1 : j < k
        · rw [if_pos j1] at gj
          obtain ⟨hj', rfl⟩ := old _ _ gj
          exact absurd he.symm (hfresh _ (List.getElem_mem hj'))
        · rw [if_neg j1] at gj
          by_cases j2 : j = k
          · omega
          · rw [if_neg j2] at gj
            obtain ⟨hj', rfl⟩ := old _ _ gj
            exact absurd he.symm (hfresh _ (List.getElem_mem hj'))
      · rw [if_neg i2] at gi
        obtain ⟨hi', rfl⟩ := old _ _ gi
        by_cases j1 : j < k
        · rw [if_pos j1] at gj
          obtain ⟨hj', rfl⟩ := old _ _ gj
          have := h.nodup _ _ hi' hj' he; omega
        · rw [if_neg j1] at gj
          by_cases j2 : j = k
          · rw [if_pos j2, if_pos (by omega)] at gj
            cases gj; exact absurd he (hfresh _ (List.getElem_mem hi'))
          · rw [if_neg j2] at gj
            obtain ⟨hj', rfl⟩ := old _ _ gj
            have := h.nodup _ _ hi' hj' he; omega
  · intro i hi
    rw [hlen] at hi
    have gi := List.getElem?_eq_getElem (l := l.insertIdx k (a, x)) (i := i) (by omega)
    generalize (l.insertIdx k (a, x))[i] = p at *
    simp only [List.getElem?_insertIdx] at gi ⊢
    by_cases i1 : i < k
    · rw [if_pos i1] at gi
      obtain ⟨hi', rfl⟩ := List.getElem?_eq_some_iff.mp gi
      have hci := h.cell i hi'
      by_cases i2 : i + 1 = k
      · subst i2
        have := hp (by omega) _ hci
        simp only [Nat.add_sub_cancel] at this
        rw [this]
        simp only [show ¬ i + 1 < i + 1 by omega, if_true, if_false, show i + 1 ≤ l.length by omega, show i - 1 < i + 1 by omega, Option.map_some]
      · rw [hc i hi' (by omega) i2, hci, if_pos (show i + 1 < k by omega), if_pos (show i - 1 < k by omega)]
    · rw [if_neg i1] at gi
      by_cases i2 : i = k
      · subst i2
        rw [if_pos rfl, if_pos (by omega)] at gi
        cases gi
        rw [ha]
        simp only [show ¬ i + 1 < i by omega, show ¬ i + 1 = i by omega, if_false, Nat.add_sub_cancel]
        by_cases hi0 : i = 0
        · simp only [hi0, if_true]
        · simp only [hi0, if_false, show i - 1 < i by omega, if_true]
      · rw [if_neg i2] at gi
        obtain ⟨hi', rfl⟩ := List.getElem?_eq_some_iff.mp gi
        have hci := h.cell (i - 1) hi'
        by_cases i3 : i - 1 = k
        · subst i3
          rw [hn hi' _ hci]
          simp only [show ¬ i + 1 < i - 1 by omega, show ¬ i + 1 = i - 1 by omega, if_false, Nat.add_sub_cancel, show i ≠ 0 by omega, Nat.lt_irrefl, if_true,
            show i - 1 ≤ l.length by omega, Option.map_some, show i - 1 + 1 = i by omega]
        · rw [hc (i - 1) hi' i3 (by omega), hci]
          simp only [show ¬ i + 1 < k by omega, show ¬ i + 1 = k by omega, if_false, Nat.add_sub_cancel, show i ≠ 0 by omega, show i - 1 ≠ 0 by omega, i3,
            show ¬ i - 1 < k by omega, show i - 1 + 1 = i by omega]

theorem map_insertIdx' {α β : Type} (f : α → β) (a : α) : ∀ (l : List α) (k : Nat), (l.insertIdx k a).map f = (l.map f).insertIdx k (f a)
  | _, 0 => rfl
  | [], _ + 1 => rfl
  | x :: l, k + 1 => by simp only [List.insertIdx_succ_cons, List.map_cons, map_insertIdx' f a l k]

theorem insertIdx_take_drop {α : Type} (a : α) : ∀ (l : List α) (k : Nat), k ≤ l.length → l.insertIdx k a = l.take k ++ a :: l.drop k
  | _, 0, _ => by simp
  | [], _ + 1, h => by simp at h
  | x :: l, k + 1, h => by
    simp only [List.insertIdx_succ_cons, List.take_succ_cons, List.drop_succ_cons, List.cons_append]
    rw [insertIdx_take_drop a l k (by simpa using h)]

/-- The list is not shared with a copy. -/
def Unshared {V : Type} (s : St V) (l : Nat) : Prop := ∃ L rc, s.lists l = some L ∧ s.rcs L.refCount = some rc ∧ RefCountIsShared rc = false

theorem detach_id {V : Type} {c : Cfg V} {s : St V} {l : Nat} (h : Unshared s l) : ListDetach c s l = some s := by
  obtain ⟨L, rc, h1, h2, h3⟩ := h
  simp [ListDetach, h1, h2, h3]

theorem unshared_us {V : Type} {s : St V} {sp : ListSpec.S V} {g : Nat → Grp V} (inv : Inv s sp g) {l : Nat} (h : Unshared s l) :
    ∃ L u, s.lists l = some L ∧ (g L.refCount).us = [(u, l)] := by
  obtain ⟨L, rc, h1, h2, h3⟩ := h
  obtain ⟨⟨p, hp, hpl⟩, _⟩ := inv.lists l L h1
  obtain ⟨rc', hrc, hok⟩ := inv.rcs L.refCount (by intro hh; rw [hh] at hp; simp at hp)
  rw [h2] at hrc; cases hrc
  have hc := hok.count
  simp [RefCountIsShared] at h3
  refine ⟨L, p.1, h1, ?_⟩
  match hh : (g L.refCount).us with
  | [] => rw [hh] at hp; simp at hp
  | [q] => rw [hh] at hp; simp at hp; subst hp; rw [← hpl]
  | q :: q' :: t => rw [hh] at hc; simp at hc; omega

theorem us_unshared {V : Type} {s : St V} {sp : ListSpec.S V} {g : Nat → Grp V} (inv : Inv s sp g) {l : Nat} {L : Lst} {u : Nat} (hl : s.lists l = some L)
    (hus : (g L.refCount).us = [(u, l)]) : Unshared s l := by
  obtain ⟨rc, hrc, hok⟩ := inv.rcs L.refCount (by rw [hus]; simp)
  exact ⟨L, rc, hl, hrc, by simp [RefCountIsShared, hok.count, hus]⟩

/-- The node of an element. -/
theorem cell_at {V : Type} {s : St V} {sp : ListSpec.S V} {g : Nat → Grp V} (inv : Inv s sp g) {l : Nat} {L : Lst} (hl : s.lists l = some L) {i : Nat}
    (hi : i < (g L.refCount).es.length) : s.nodes.cells (g L.refCount).es[i].1 =
      some ⟨.ptr (g L.refCount).es[i].2.1, (g L.refCount).es[i+1]?.map (·.1), if i = 0 then none else (g L.refCount).es[i-1]?.map (·.1)⟩ := by
  obtain ⟨_, _, _, hdl, _⟩ := inv.lists l L hl
  have h := hdl.cell i (by rw [ns_length]; exact hi)
  rw [ns_getElem] at h
  have hnx : ((ns (g L.refCount).es)[i+1]?).map (·.1) = ((g L.refCount).es[i+1]?).map (·.1) := by simp [ns]; rfl
  have hpv : ((ns (g L.refCount).es)[i-1]?).map (·.1) = ((g L.refCount).es[i-1]?).map (·.1) := by simp [ns]; rfl
  rw [hnx, hpv] at h
  exact h

/-! ## Removing the element at a position -/

theorem inv_erase {V : Type} (c : Cfg V) {s : St V} {sp : ListSpec.S V} {g : Nat → Grp V} (inv : Inv s sp g) {l : Nat} {L : Lst} (hl : s.lists l = some L) {u : Nat}
    (hus : (g L.refCount).us = [(u, l)]) {k : Nat} (hk : k < (g L.refCount).es.length) :
    ∃ n h1 L' h2 pays', s.nodes.cells (g L.refCount).es[k].1 = some n ∧ n.next = (g L.refCount).es[k+1]?.map (·.1) ∧
      n.previous = (if k = 0 then none else (g L.refCount).es[k-1]?.map (·.1)) ∧ unlink c s.nodes L n = some (h1, L') ∧
      removePay s.pays n.data = some pays' ∧ h1.free (g L.refCount).es[k].1 = some h2 ∧ L'.refCount = L.refCount ∧
      Inv ({ s with nodes := h2, pays := pays' }.putList l (some { L' with nodeCount := L'.nodeCount - 1, state := L'.state + 1 }))
        (sp.set l (some (((g L.refCount).es.eraseIdx k).map (·.2.2)))) (gset g L.refCount ⟨(g L.refCount).us, (g L.refCount).es.eraseIdx k⟩) ∧
      (∀ a, (∀ e ∈ (g L.refCount).es, e.2.1 ≠ a) → pays'.cells a = s.pays.cells a) ∧
      (∀ c', Tight c' s g none → Tight c' ({ s with nodes := h2, pays := pays' }.putList l (some { L' with nodeCount := L'.nodeCount - 1, state := L'.state + 1 }))
        (gset g L.refCount ⟨(g L.refCount).us, (g L.refCount).es.eraseIdx k⟩) none) ∧
      (∀ a v, pays'.cells a = some v → s.pays.cells a = some v) ∧ pays'.fresh = s.pays.fresh := by
  obtain ⟨_, hlf, hcnt, hdl, hval⟩ := inv.lists l L hl
  have heok := inv.es L.refCount
  have hcell := cell_at inv hl hk
  obtain ⟨n, h1, L', h2, u1, u2, u3, u4, u5, u6, u7, u8, u9, u10, u11⟩ := unlink_ok c hdl hlf (k := k) (by rw [ns_length]; exact hk)
  rw [ns_getElem] at u1 u2 u4
  have hmem := List.getElem_mem hk
  have hpk := heok.pay _ hmem
  rw [hcell] at u1
  have hnn := Option.some.inj u1
  generalize hE : (g L.refCount).es[k] = E at *
  obtain ⟨ea, ep, ev⟩ := E
  simp only at u1 u2 u4 hpk hcell
  have hpnd : ∀ e ∈ (g L.refCount).es.eraseIdx k, e.2.1 ≠ ep := by
    intro e he hh
    have h3 := eraseIdx_nodup heok.pay_nodup (k := k) (by simpa using hk)
    rw [List.getElem_map, hE, eraseIdx_map'] at h3
    exact h3 (by rw [List.mem_map]; exact ⟨e, he, hh⟩)
  have hsub : ∀ e ∈ (g L.refCount).es.eraseIdx k, e ∈ (g L.refCount).es := fun e he => List.mem_of_mem_eraseIdx he
  have key := inv_update inv hl hus (h' := h2) (pays' := ⟨fun b => if b = ep then none else s.pays.cells b, s.pays.fresh⟩)
    (L' := { L' with nodeCount := L'.nodeCount - 1, state := L'.state + 1 })
    (es' := (g L.refCount).es.eraseIdx k) u8 u6 (by simp [u7, hcnt, List.length_eraseIdx, hk])
    (by simp only; rw [show ns ((g L.refCount).es.eraseIdx k) = (ns (g L.refCount).es).eraseIdx k by
          rw [ns, ns, eraseIdx_map']]; exact u5)
    (by omega) (by simp)
    ⟨fun e he => by rw [u10]; exact heok.node_lt e (hsub e he), fun e he => heok.pay_lt e (hsub e he),
      fun e he => by simp only [if_neg (hpnd e he)]; exact heok.pay e (hsub e he),
      by rw [← eraseIdx_map']; exact heok.pay_nodup.sublist (List.eraseIdx_sublist _ _)⟩
    (fun e he => Or.inl ⟨e, hsub e he, rfl⟩) (fun e he => Or.inl ⟨e, hsub e he, rfl⟩)
    (by intro r hr e he
        apply u11
        intro p hp
        simp only [ns, List.mem_map] at hp
        obtain ⟨d, hd, rfl⟩ := hp
        exact inv.node_disj _ _ (Ne.symm hr) d hd e he)
    (by intro r hr e he
        have : e.2.1 ≠ ep := inv.pay_disj _ _ hr e he _ hmem
        simp [this])
  refine ⟨n, h1, L', h2, _, by rw [hcell, hnn], by rw [← hnn], by rw [← hnn], u3, ?_, u4, u8, key, ?_⟩
  · rw [u2]; simp [removePay, Pays.free, hpk]
  refine ⟨?_, fun c' tg => tight_update inv tg hl _ _ _ _ ?_ ?_, ?_, rfl⟩
  · intro a ha
    have : a ≠ ep := fun hh => ha _ hmem hh.symm
    simp [this]
  · intro b hb
    by_cases hbe : b = ea
    · subst hbe
      rw [free_gone u4] at hb
      exact absurd rfl hb
    · by_cases hin : ∃ e ∈ (g L.refCount).es, e.1 = b
      · obtain ⟨e, he', heb⟩ := hin
        refine Or.inl ⟨e, ?_, heb⟩
        rw [List.mem_iff_getElem] at he'
        obtain ⟨j, hj, hje⟩ := he'
        rw [List.mem_eraseIdx_iff_getElem]
        refine ⟨j, hj, ?_, hje⟩
        intro hh; subst hh
        rw [hE] at hje; subst hje; exact hbe heb.symm
      · rw [u11 b (by
          intro p hp hpb
          simp only [ns, List.mem_map] at hp
          obtain ⟨d, hd, rfl⟩ := hp
          exact hin ⟨d, hd, hpb⟩)] at hb
        exact Or.inr ⟨hb, fun e he' heb => hin ⟨e, he', heb⟩⟩
  · intro b hb
    by_cases hbe : b = ep
    · simp only [hbe, if_true] at hb; exact absurd rfl hb
    · simp only [hbe, if_false] at hb
      by_cases hin : ∃ e ∈ (g L.refCount).es, e.2.1 = b
      · obtain ⟨e, he', heb⟩ := hin
        refine Or.inl ⟨e, ?_, heb⟩
        rw [List.mem_iff_getElem] at he'
        obtain ⟨j, hj, hje⟩ := he'
        rw [List.mem_eraseIdx_iff_getElem]
        refine ⟨j, hj, ?_, hje⟩
        intro hh; subst hh
        rw [hE] at hje; subst hje; exact hbe heb.symm
      · exact Or.inr ⟨hb, fun e he' heb => hin ⟨e, he', heb⟩, id⟩
  · intro a v hav
    simp only at hav
    split at hav
    · cases hav
    · exact hav

/-! ## Inserting at a position -/

theorem inv_insert {V : Type} {s : St V} {sp : ListSpec.S V} {g : Nat → Grp V} (inv : Inv s sp g) {l : Nat} {L : Lst} (hl : s.lists l = some L) {u : Nat}
    (hus : (g L.refCount).us = [(u, l)]) {k : Nat} (hk : k ≤ (g L.refCount).es.length) {a : Nat} {v : V} (ha : s.pays.cells a = some v)
    (halt : a < s.pays.fresh) (hno : ∀ r, ∀ e ∈ (g r).es, e.2.1 ≠ a) (h' : Heap Pay) (L' : Lst) (hf : h'.fresh = s.nodes.fresh + 1)
    (hc : ∀ b, b ≠ s.nodes.fresh → (∀ (hk0 : k ≠ 0), b ≠ ((g L.refCount).es[k-1]'(by omega)).1) → (∀ hk1 : k < (g L.refCount).es.length, b ≠ (g L.refCount).es[k].1) →
      h'.cells b = s.nodes.cells b)
    (hnew : h'.cells s.nodes.fresh = some ⟨.ptr a, (g L.refCount).es[k]?.map (·.1), if k = 0 then none else (g L.refCount).es[k-1]?.map (·.1)⟩)
    (hp : ∀ (hk0 : k ≠ 0) n, s.nodes.cells ((g L.refCount).es[k-1]'(by omega)).1 = some n → h'.cells ((g L.refCount).es[k-1]'(by omega)).1 = some { n with next := some s.nodes.fresh })
    (hn : ∀ (hk1 : k < (g L.refCount).es.length) n, s.nodes.cells (g L.refCount).es[k].1 = some n → h'.cells (g L.refCount).es[k].1 = some { n with previous := some s.nodes.fresh })
    (hL1 : L'.refCount = L.refCount) (hL2 : L'.list = L'.first) (hL3 : L'.nodeCount = L.nodeCount + 1)
    (hL4 : L'.first = if k = 0 then some s.nodes.fresh else L.first) (hL5 : L'.last = if k = (g L.refCount).es.length then some s.nodes.fresh else L.last) :
    Inv ({ s with nodes := h' }.putList l (some L')) (sp.set l (some (((g L.refCount).es.insertIdx k (s.nodes.fresh, a, v)).map (·.2.2))))
      (gset g L.refCount ⟨(g L.refCount).us, (g L.refCount).es.insertIdx k (s.nodes.fresh, a, v)⟩) := by
  obtain ⟨_, hlf, hcnt, hdl, hval⟩ := inv.lists l L hl
  have heok := inv.es L.refCount
  have hmem : ∀ e, e ∈ (g L.refCount).es.insertIdx k (s.nodes.fresh, a, v) → e = (s.nodes.fresh, a, v) ∨ e ∈ (g L.refCount).es := by
    intro e he; exact (List.mem_insertIdx hk).mp he
  have hnsI : ns ((g L.refCount).es.insertIdx k (s.nodes.fresh, a, v)) = (ns (g L.refCount).es).insertIdx k (s.nodes.fresh, .ptr a) := by
    rw [ns, ns, map_insertIdx']
  refine inv_update inv hl hus h' s.pays L' _ hL1 hL2 (by rw [hL3, hcnt, List.length_insertIdx, if_pos hk]) ?_ (by omega) (Nat.le_refl _) ⟨?_, ?_, ?_, ?_⟩ ?_ ?_ ?_ (fun _ _ _ _ => rfl)
  · rw [hnsI]
    refine DL.insert hdl (by rw [ns_length]; exact hk) (ns_fresh inv _) ?_ ?_ ?_ ?_ hL4 (by rw [ns_length]; exact hL5)
    · intro i hi h1 h2
      rw [ns_length] at hi
      rw [ns_getElem]
      have hnd : ∀ j (hj : j < (g L.refCount).es.length), (g L.refCount).es[i].1 = (g L.refCount).es[j].1 → i = j := by
        intro j hj hh
        have := hdl.nodup i j (by rw [ns_length]; exact hi) (by rw [ns_length]; exact hj)
        rw [ns_getElem, ns_getElem] at this
        exact this hh
      apply hc
      · have := heok.node_lt _ (List.getElem_mem hi); simp only; omega
      · intro hk0 hh; have := hnd _ (by omega) hh; omega
      · intro hk1 hh; have := hnd _ (by omega) hh; omega
    · rw [hnew]
      have hnx : ((ns (g L.refCount).es)[k]?).map (·.1) = ((g L.refCount).es[k]?).map (·.1) := by simp [ns]; rfl
      have hpv : ((ns (g L.refCount).es)[k-1]?).map (·.1) = ((g L.refCount).es[k-1]?).map (·.1) := by simp [ns]; rfl
      rw [hnx, hpv]
    · intro hk0 n h; simp only [ns_getElem] at h ⊢; exact hp hk0 n h
    · intro hk1 n h; simp only [ns_getElem] at h ⊢; exact hn (by rw [ns_length] at hk1; exact hk1) n h
  · intro e he
    rcases hmem e he with rfl | he
    · simp; omega
    · have := heok.node_lt e he; omega
  · intro e he
    rcases hmem e he with rfl | he
    · exact halt
    · exact heok.pay_lt e he
  · intro e he
    rcases hmem e he with rfl | he
    · exact ha
    · exact heok.pay e he
  · rw [map_insertIdx']
    have hperm : ((((g L.refCount).es.map (·.2.1)).insertIdx k a)).Perm (a :: (g L.refCount).es.map (·.2.1)) := List.perm_insertIdx _ _ (by simpa using hk)
    rw [hperm.nodup_iff, List.nodup_cons]
    refine ⟨fun hh => ?_, heok.pay_nodup⟩
    obtain ⟨e, he, hea⟩ := List.mem_map.mp hh
    exact hno _ e he hea
  · intro e he
    rcases hmem e he with rfl | he
    · exact Or.inr (Nat.le_refl _)
    · exact Or.inl ⟨e, he, rfl⟩
  · intro e he
    rcases hmem e he with rfl | he
    · exact Or.inr hno
    · exact Or.inl ⟨e, he, rfl⟩
  · intro r hr e he
    apply hc
    · have := (inv.es r).node_lt e he; omega
    · intro hk0 hh; exact inv.node_disj r _ hr e he _ (List.getElem_mem (by omega)) hh
    · intro hk1 hh; exact inv.node_disj r _ hr e he _ (List.getElem_mem hk1) hh

/-! ## Calls on an open iterator -/

/-- One call; new elements and the key of a removal are objects of the caller's. -/
def mExec {V : Type} (c : Cfg V) (s : St V) (it : MIter) : ListSpec.MOp V → Option (St V × MIter × ListSpec.ItOut V)
  | .move .first => (mFirst s it).map fun p => (s, p.1, .flag p.2)
  | .move .last => (mLast s it).map fun p => (s, p.1, .flag p.2)
  | .move .next => (mNext s it).map fun p => (s, p.1, .flag p.2)
  | .move .previous => (mPrevious s it).map fun p => (s, p.1, .flag p.2)
  | .move .data => (mData s it).map fun v => (s, it, .value v)
  | .move .hasNext => (mHasNext s it).map fun b => (s, it, .flag b)
  | .move .hasPrevious => (mHasPrevious s it).map fun b => (s, it, .flag b)
  | .prepend v => (mPrepend c { s with pays := (s.pays.alloc v).2 } it (.ptr (s.pays.alloc v).1)).map fun p => (p.1, it, .flag p.2)
  | .append v => (mAppend c { s with pays := (s.pays.alloc v).2 } it (.ptr (s.pays.alloc v).1)).map fun p => (p.1, it, .flag p.2)
  | .remove => (mRemove c s it).map fun p => (p.1, p.2.1, .flag p.2.2)
  | .listRemove v =>
    (ListRemoveOpen c { s with pays := (s.pays.alloc v).2 } it.origin (s.pays.alloc v).1 it).bind fun p =>
    (p.1.pays.free (s.pays.alloc v).1).bind fun pays => some ({ p.1 with pays }, p.2.1, .flag (decide (p.2.2 = 0)))

def mExecs {V : Type} (c : Cfg V) (s : St V) (it : MIter) : List (ListSpec.MOp V) → Option (St V × MIter × List (ListSpec.ItOut V))
  | [] => some (s, it, [])
  | op :: ops => (mExec c s it op).bind fun p => (mExecs c p.1 p.2.1 ops).bind fun q => some (q.1, q.2.1, p.2.2 :: q.2.2)

/-- The iterator stands on element `i` of the list `l`, which is not shared. -/
structure At {V : Type} (s : St V) (g : Nat → Grp V) (it : MIter) (l i : Nat) (L : Lst) (u : Nat) : Prop where
  hl : s.lists l = some L
  us : (g L.refCount).us = [(u, l)]
  lt : i < (g L.refCount).es.length
  eq : it = ⟨(g L.refCount).es[i]?.map (·.1), l, true⟩

theorem set_self {V : Type} {sp : ListSpec.S V} {l : Nat} {xs : List V} (h : sp.val l = some xs) : sp.set l (some xs) = sp := by
  cases sp with
  | mk val next =>
    simp only [ListSpec.S.set, ListSpec.S.mk.injEq, and_true]
    funext b
    by_cases hb : b = l
    · subst hb; rw [if_pos rfl]; exact h.symm
    · rw [if_neg hb]

theorem At.cell {V : Type} {s : St V} {sp : ListSpec.S V} {g : Nat → Grp V} {it : MIter} {l i : Nat} {L : Lst} {u : Nat} (inv : Inv s sp g) (h : At s g it l i L u)
    (hi : i < (g L.refCount).es.length) :
    it = ⟨some ((g L.refCount).es[i]'hi).1, l, true⟩ ∧ s.nodes.cells ((g L.refCount).es[i]'hi).1 =
      some ⟨.ptr ((g L.refCount).es[i]'hi).2.1, (g L.refCount).es[i+1]?.map (·.1), if i = 0 then none else (g L.refCount).es[i-1]?.map (·.1)⟩ := by
  refine ⟨h.eq.trans ?_, cell_at inv h.hl hi⟩
  rw [List.getElem?_eq_getElem hi]; rfl

theorem move_ok {V : Type} (c : Cfg V) {s : St V} {sp : ListSpec.S V} {g : Nat → Grp V} (inv : Inv s sp g) {it : MIter} {l i : Nat} {L : Lst} {u : Nat} (h : At s g it l i L u)
    (op : ListSpec.ItOp) : ∃ it', mExec c s it (.move op) = some (s, it', (ListSpec.itStep ((g L.refCount).es.map (·.2.2)) i op).2) ∧
      At s g it' l (ListSpec.itStep ((g L.refCount).es.map (·.2.2)) i op).1 L u := by
  have hi := h.lt
  obtain ⟨hit, hci⟩ := h.cell inv hi
  obtain ⟨_, hlf, hcnt, hdl, hval⟩ := inv.lists l L h.hl
  have hpay := (inv.es L.refCount).pay _ (List.getElem_mem hi)
  have mk : ∀ j, j < (g L.refCount).es.length → At s g ⟨(g L.refCount).es[j]?.map (·.1), l, true⟩ l j L u := fun j hj => ⟨h.hl, h.us, hj, rfl⟩
  have hself : At s g it l i L u := h
  have hl := h.hl
  clear h
  subst hit
  cases op with
  | first =>
    have : L.first = (g L.refCount).es[0]?.map (·.1) := by rw [hdl.first_eq, List.head?_eq_getElem?]; simp [ns]; rfl
    refine ⟨_, ?_, mk 0 (by omega)⟩
    simp [mExec, mFirst, hl, this, ListSpec.itStep]
  | last =>
    have : L.last = (g L.refCount).es[(g L.refCount).es.length - 1]?.map (·.1) := by rw [hdl.last_eq, List.getLast?_eq_getElem?, ns_length]; simp [ns]; rfl
    refine ⟨⟨(g L.refCount).es[(g L.refCount).es.length - 1]?.map (·.1), l, true⟩, ?_, ?_⟩
    · simp [mExec, mLast, hl, this, ListSpec.itStep]
    · have h2 := mk ((g L.refCount).es.length - 1) (by omega); simpa [ListSpec.itStep] using h2
  | next =>
    by_cases h1 : i + 1 < (g L.refCount).es.length
    · refine ⟨⟨(g L.refCount).es[i + 1]?.map (·.1), l, true⟩, ?_, ?_⟩
      · simp [mExec, mNext, hci, ListSpec.itStep, h1]
      · have h2 := mk (i + 1) h1; simpa [ListSpec.itStep, h1] using h2
    · refine ⟨_, ?_, by simpa [ListSpec.itStep, h1] using hself⟩
      simp [mExec, mNext, hci, ListSpec.itStep, h1, List.getElem?_eq_none (show (g L.refCount).es.length ≤ i + 1 by omega)]
  | previous =>
    by_cases h1 : i = 0
    · subst h1
      refine ⟨_, ?_, by simpa [ListSpec.itStep] using hself⟩
      simp [mExec, mPrevious, hci, ListSpec.itStep]
    · refine ⟨⟨(g L.refCount).es[i - 1]?.map (·.1), l, true⟩, ?_, ?_⟩
      · simp [mExec, mPrevious, hci, ListSpec.itStep, h1, show 0 < i by omega, List.getElem?_eq_getElem (show i - 1 < (g L.refCount).es.length by omega)]
      · have h2 := mk (i - 1) (by omega); simpa [ListSpec.itStep, h1, show 0 < i by omega] using h2
  | data =>
    refine ⟨_, ?_, hself⟩
    simp [mExec, mData, hci, ListSpec.itStep, hpay, List.getElem?_eq_getElem hi]
  | hasNext =>
    refine ⟨_, ?_, hself⟩
    by_cases h1 : i + 1 < (g L.refCount).es.length
    · simp [mExec, mHasNext, hci, ListSpec.itStep, h1]
    · simp [mExec, mHasNext, hci, ListSpec.itStep, h1, List.getElem?_eq_none (show (g L.refCount).es.length ≤ i + 1 by omega)]
  | hasPrevious =>
    refine ⟨_, ?_, hself⟩
    by_cases h1 : i = 0
    · subst h1; simp [mExec, mHasPrevious, hci, ListSpec.itStep]
    · simp [mExec, mHasPrevious, hci, ListSpec.itStep, h1, show 0 < i by omega, List.getElem?_eq_getElem (show i - 1 < (g L.refCount).es.length by omega)]

/-- A list with a fresh node somewhere in memory is as unshared as before. -/
theorem unshared_nodes {V : Type} {s : St V} {l : Nat} (h : Unshared s l) (nodes : Heap Pay) (pays : Pays V) : Unshared { s with nodes, pays } l := h

theorem prepend_ok {V : Type} (c : Cfg V) {s : St V} {sp : ListSpec.S V} {g : Nat → Grp V} (inv : Inv s sp g) {it : MIter} {l i : Nat} {L : Lst} {u : Nat} (h : At s g it l i L u)
    {a : Nat} {v : V} (ha : s.pays.cells a = some v) (halt : a < s.pays.fresh) (hno : ∀ r, ∀ e ∈ (g r).es, e.2.1 ≠ a) :
    ∃ s' L', mPrepend c s it (.ptr a) = some (s', true) ∧
      Inv s' (sp.set l (some (((g L.refCount).es.insertIdx i (s.nodes.fresh, a, v)).map (·.2.2)))) (gset g L.refCount ⟨(g L.refCount).us, (g L.refCount).es.insertIdx i (s.nodes.fresh, a, v)⟩) ∧
      s'.lists l = some L' ∧ L'.refCount = L.refCount := by
  have hi := h.lt
  obtain ⟨hit, hci⟩ := h.cell inv hi
  have hl := h.hl
  have hus := h.us
  clear h
  obtain ⟨_, hlf, hcnt, hdl, hval⟩ := inv.lists l L hl
  have hnf : ((g L.refCount).es[i]).1 ≠ s.nodes.fresh := by have := (inv.es L.refCount).node_lt _ (List.getElem_mem hi); omega
  have hdet : ListDetach c { s with nodes := (allocNode s.nodes { data := Pay.uninit, next := none, previous := none }).2 } l =
      some { s with nodes := (allocNode s.nodes { data := Pay.uninit, next := none, previous := none }).2 } := detach_id (unshared_nodes (us_unshared inv hl hus) _ _)
  have hnd : ∀ j (hj : j < (g L.refCount).es.length), (g L.refCount).es[i].1 = (g L.refCount).es[j].1 → i = j := by
    intro j hj hh
    have := hdl.nodup i j (by rw [ns_length]; exact hi) (by rw [ns_length]; exact hj)
    rw [ns_getElem, ns_getElem] at this
    exact this hh
  subst hit
  by_cases h0 : i = 0
  · subst h0
    simp only [if_true] at hci
    have key := inv_insert inv hl hus (k := 0) (by omega) ha halt hno
      (h' := ⟨fun b => if b = ((g L.refCount).es[0]).1 then some ⟨.ptr ((g L.refCount).es[0]).2.1, (g L.refCount).es[0+1]?.map (·.1), some s.nodes.fresh⟩
        else if b = s.nodes.fresh then some ⟨.ptr a, some ((g L.refCount).es[0]).1, none⟩ else s.nodes.cells b, s.nodes.fresh + 1⟩)
      (L' := { L with first := some s.nodes.fresh, list := some s.nodes.fresh, nodeCount := L.nodeCount + 1 }) rfl
      (by intro b h1 _ h2; simp [h1, h2 hi])
      (by simp [Ne.symm hnf, List.getElem?_eq_getElem hi])
      (by intro h; exact absurd rfl h)
      (by intro _ n hn; rw [hci] at hn; cases hn; simp)
      rfl rfl rfl (by simp) (by rw [if_neg (by omega)])
    refine ⟨_, _, ?_, key, if_pos rfl, rfl⟩
    simp only [mPrepend, if_true, hdet, Option.bind_eq_bind, Option.bind_some]
    simp only [allocNode, put_cells, Option.bind_eq_bind, hnf, if_false, hci, Option.bind_some, hl, setPrev, if_true]
    congr 4
    simp only [Heap.put]
    congr 1
    funext b
    by_cases hb : b = ((g L.refCount).es[0]).1 <;> by_cases hb2 : b = s.nodes.fresh <;> simp [hb, hb2]
  · have hp1 : i - 1 < (g L.refCount).es.length := by omega
    have hcp := cell_at inv hl hp1
    have hnfp : ((g L.refCount).es[i-1]).1 ≠ s.nodes.fresh := by have := (inv.es L.refCount).node_lt _ (List.getElem_mem hp1); omega
    have hne : ((g L.refCount).es[i]).1 ≠ ((g L.refCount).es[i-1]).1 := fun hh => by have := hnd _ hp1 hh; omega
    have e1 : (g L.refCount).es[i-1]?.map (·.1) = some ((g L.refCount).es[i-1]).1 := by rw [List.getElem?_eq_getElem hp1]; rfl
    simp only [h0, if_false, e1] at hci
    generalize hP : (Node.mk _ _ _ : Node Pay) = P at hcp
    have key := inv_insert inv hl hus (k := i) (by omega) ha halt hno
      (h' := ⟨fun b => if b = ((g L.refCount).es[i]).1 then some ⟨.ptr ((g L.refCount).es[i]).2.1, (g L.refCount).es[i+1]?.map (·.1), some s.nodes.fresh⟩
        else if b = ((g L.refCount).es[i-1]).1 then some { P with next := some s.nodes.fresh }
        else if b = s.nodes.fresh then some ⟨.ptr a, some ((g L.refCount).es[i]).1, some ((g L.refCount).es[i-1]).1⟩ else s.nodes.cells b, s.nodes.fresh + 1⟩)
      (L' := { L with nodeCount := L.nodeCount + 1 }) rfl
      (by intro b h1 h3 h2; simp [h1, h2 hi, h3 h0])
      (by simp [Ne.symm hnf, Ne.symm hnfp, List.getElem?_eq_getElem hi, List.getElem?_eq_getElem hp1, h0])
      (by intro _ n hn; rw [hcp] at hn; cases hn; simp [Ne.symm hne])
      (by intro _ n hn; rw [hci] at hn; cases hn; simp)
      rfl hlf rfl (by simp [h0]) (by rw [if_neg (by omega)])
    refine ⟨_, _, ?_, key, if_pos rfl, rfl⟩
    simp only [mPrepend, if_true, hdet, Option.bind_eq_bind, Option.bind_some]
    simp only [allocNode, put_cells, Option.bind_eq_bind, hnf, hnfp, if_false, hci, Option.bind_some, hl, setPrev, setNext, if_true, hne, hcp]
    congr 4
    simp only [Heap.put]
    congr 1
    funext b
    by_cases hb : b = ((g L.refCount).es[i]).1 <;> by_cases hb2 : b = s.nodes.fresh <;> by_cases hb3 : b = ((g L.refCount).es[i-1]).1 <;> simp [hb, hb2, hb3]

theorem append_ok {V : Type} (c : Cfg V) {s : St V} {sp : ListSpec.S V} {g : Nat → Grp V} (inv : Inv s sp g) {it : MIter} {l i : Nat} {L : Lst} {u : Nat} (h : At s g it l i L u)
    {a : Nat} {v : V} (ha : s.pays.cells a = some v) (halt : a < s.pays.fresh) (hno : ∀ r, ∀ e ∈ (g r).es, e.2.1 ≠ a) :
    ∃ s' L', mAppend c s it (.ptr a) = some (s', true) ∧
      Inv s' (sp.set l (some (((g L.refCount).es.insertIdx (i + 1) (s.nodes.fresh, a, v)).map (·.2.2))))
        (gset g L.refCount ⟨(g L.refCount).us, (g L.refCount).es.insertIdx (i + 1) (s.nodes.fresh, a, v)⟩) ∧
      s'.lists l = some L' ∧ L'.refCount = L.refCount := by
  have hi := h.lt
  obtain ⟨hit, hci⟩ := h.cell inv hi
  have hl := h.hl
  have hus := h.us
  clear h
  obtain ⟨_, hlf, hcnt, hdl, hval⟩ := inv.lists l L hl
  have hnf : ((g L.refCount).es[i]).1 ≠ s.nodes.fresh := by have := (inv.es L.refCount).node_lt _ (List.getElem_mem hi); omega
  have hdet : ListDetach c { s with nodes := (allocNode s.nodes { data := Pay.uninit, next := none, previous := none }).2 } l =
      some { s with nodes := (allocNode s.nodes { data := Pay.uninit, next := none, previous := none }).2 } := detach_id (unshared_nodes (us_unshared inv hl hus) _ _)
  have hnd : ∀ j (hj : j < (g L.refCount).es.length), (g L.refCount).es[i].1 = (g L.refCount).es[j].1 → i = j := by
    intro j hj hh
    have := hdl.nodup i j (by rw [ns_length]; exact hi) (by rw [ns_length]; exact hj)
    rw [ns_getElem, ns_getElem] at this
    exact this hh
  subst hit
  by_cases h0 : i + 1 = (g L.refCount).es.length
  · have e1 : (g L.refCount).es[i+1]?.map (·.1) = none := by rw [List.getElem?_eq_none (by omega)]; rfl
    rw [e1] at hci
    generalize hP : (if i = 0 then none else (g L.refCount).es[i-1]?.map (·.1) : Option Nat) = P at hci
    have key := inv_insert inv hl hus (k := i + 1) (by omega) ha halt hno
      (h' := ⟨fun b => if b = ((g L.refCount).es[i]).1 then some ⟨.ptr ((g L.refCount).es[i]).2.1, some s.nodes.fresh, P⟩
        else if b = s.nodes.fresh then some ⟨.ptr a, none, some ((g L.refCount).es[i]).1⟩ else s.nodes.cells b, s.nodes.fresh + 1⟩)
      (L' := { L with last := some s.nodes.fresh, nodeCount := L.nodeCount + 1 }) rfl
      (by intro b h1 h2 _; have := h2 (by omega); simp only [Nat.add_sub_cancel] at this; simp [h1, this])
      (by simp [Ne.symm hnf, List.getElem?_eq_getElem hi, e1])
      (by intro _ n hn; simp only [Nat.add_sub_cancel] at hn ⊢; rw [hci] at hn; cases hn; simp)
      (by intro hk; omega)
      rfl hlf rfl (by simp) (by rw [if_pos h0])
    refine ⟨_, _, ?_, key, if_pos rfl, rfl⟩
    simp only [mAppend, if_true, hdet, Option.bind_eq_bind, Option.bind_some]
    simp only [allocNode, put_cells, Option.bind_eq_bind, hnf, if_false, hci, Option.bind_some, hl, setNext, if_true]
    congr 4
    simp only [Heap.put]
    congr 1
    funext b
    by_cases hb : b = ((g L.refCount).es[i]).1 <;> by_cases hb2 : b = s.nodes.fresh <;> simp [hb, hb2]
  · have hp1 : i + 1 < (g L.refCount).es.length := by omega
    have hcp := cell_at inv hl hp1
    have hnfp : ((g L.refCount).es[i+1]).1 ≠ s.nodes.fresh := by have := (inv.es L.refCount).node_lt _ (List.getElem_mem hp1); omega
    have hne : ((g L.refCount).es[i]).1 ≠ ((g L.refCount).es[i+1]).1 := fun hh => by have := hnd _ hp1 hh; omega
    have e1 : (g L.refCount).es[i+1]?.map (·.1) = some ((g L.refCount).es[i+1]).1 := by rw [List.getElem?_eq_getElem hp1]; rfl
    rw [e1] at hci
    generalize hP : (if i = 0 then none else (g L.refCount).es[i-1]?.map (·.1) : Option Nat) = P at hci
    generalize hQ : (Node.mk _ _ _ : Node Pay) = Q at hcp
    have key := inv_insert inv hl hus (k := i + 1) (by omega) ha halt hno
      (h' := ⟨fun b => if b = ((g L.refCount).es[i]).1 then some ⟨.ptr ((g L.refCount).es[i]).2.1, some s.nodes.fresh, P⟩
        else if b = ((g L.refCount).es[i+1]).1 then some { Q with previous := some s.nodes.fresh }
        else if b = s.nodes.fresh then some ⟨.ptr a, some ((g L.refCount).es[i+1]).1, some ((g L.refCount).es[i]).1⟩ else s.nodes.cells b, s.nodes.fresh + 1⟩)
      (L' := { L with nodeCount := L.nodeCount + 1 }) rfl
      (by intro b h1 h2 h3; have := h2 (by omega); simp only [Nat.add_sub_cancel] at this; simp [h1, this, h3 hp1])
      (by simp [Ne.symm hnf, Ne.symm hnfp, List.getElem?_eq_getElem hi, List.getElem?_eq_getElem hp1])
      (by intro _ n hn; simp only [Nat.add_sub_cancel] at hn ⊢; rw [hci] at hn; cases hn; simp)
      (by intro _ n hn; rw [hcp] at hn; cases hn; simp [Ne.symm hne])
      rfl hlf rfl (by simp) (by rw [if_neg h0])
    refine ⟨_, _, ?_, key, if_pos rfl, rfl⟩
    simp only [mAppend, if_true, hdet, Option.bind_eq_bind, Option.bind_some]
    simp only [allocNode, put_cells, Option.bind_eq_bind, hnf, hnfp, if_false, hci, Option.bind_some, hl, setPrev, setNext, if_true, hne, hcp]
    congr 4
    simp only [Heap.put]
    congr 1
    funext b
    by_cases hb : b = ((g L.refCount).es[i]).1 <;> by_cases hb2 : b = s.nodes.fresh <;> by_cases hb3 : b = ((g L.refCount).es[i+1]).1 <;> simp [hb, hb2, hb3]

/-- Where the iterator stands after a call. -/
def Post {V : Type} (s : St V) (g : Nat → Grp V) (it : MIter) (l : Nat) : Option Nat → Prop
  | some j => ∃ L u, At s g it l j L u
  | none => it.valid = false ∧ it.origin = l

theorem remove_ok {V : Type} (c : Cfg V) {s : St V} {sp : ListSpec.S V} {g : Nat → Grp V} (inv : Inv s sp g) {it : MIter} {l i : Nat} {L : Lst} {u : Nat} (h : At s g it l i L u)
    (f : V → V → Bool) {xs : List V} (hxs : (g L.refCount).es.map (·.2.2) = xs) :
    ∃ s' it' g', mExec c s it .remove = some (s', it', (ListSpec.mStep f xs i .remove).2.2) ∧
      Inv s' (sp.set l (some (ListSpec.mStep f xs i .remove).1)) g' ∧ Post s' g' it' l (ListSpec.mStep f xs i .remove).2.1 := by
  have hi := h.lt
  obtain ⟨hit, hci⟩ := h.cell inv hi
  have hl := h.hl
  have hus := h.us
  have hdet : ListDetach c s l = some s := detach_id (us_unshared inv hl hus)
  have hlen : xs.length = (g L.refCount).es.length := by rw [← hxs, List.length_map]
  have hval : sp.val l = some xs := by obtain ⟨_, _, _, _, hv⟩ := inv.lists l L hl; rw [hv, hxs]
  by_cases h1 : (g L.refCount).es.length = 1
  · refine ⟨s, it, g, ?_, ?_, ?_⟩
    · have h0 : i = 0 := by omega
      subst h0
      have e1 : (g L.refCount).es[0+1]? = none := List.getElem?_eq_none (by omega)
      rw [e1] at hci
      subst hit
      simp [mExec, mRemove, hdet, hci, ListSpec.mStep, hlen, h1]
    · simp only [ListSpec.mStep, hlen, h1, if_true]; rw [set_self hval]; exact inv
    · simp only [ListSpec.mStep, hlen, h1, if_true]; exact ⟨L, u, h⟩
  · clear h
    obtain ⟨n, h1', L', h2, pays', e1, e2, e3, e4, e5, e6, e7, key, _⟩ := inv_erase c inv hl hus hi
    rw [e1] at hci
    have hn := Option.some.inj hci
    have hsp : (ListSpec.mStep f xs i .remove).1 = ((g L.refCount).es.eraseIdx i).map (·.2.2) := by
      simp only [ListSpec.mStep, hlen, h1, if_false]
      rw [← List.eraseIdx_eq_take_drop_succ, ← hxs, eraseIdx_map']
    rw [hsp]
    refine ⟨_, ⟨(((g L.refCount).es.eraseIdx i)[if i + 1 < xs.length then i else i - 1]?).map (·.1), l, true⟩, _, ?_, key, ?_⟩
    rotate_left
    · simp only [ListSpec.mStep, hlen, h1, if_false]
      refine ⟨_, u, if_pos rfl, ?_, ?_, ?_⟩
      · simp only [e7, gset_same]; exact hus
      · simp only [e7, gset_same, List.length_eraseIdx, hi, if_true]; split <;> omega
      · simp only [e7, gset_same]
    · have hx1 : ¬ xs.length = 1 := by omega
      subst hit
      simp only [mExec, mRemove, if_true, hdet, Option.bind_eq_bind, Option.bind_some, e1, ListSpec.mStep, hx1, if_false]
      by_cases h3 : i + 1 < (g L.refCount).es.length
      · rw [e2, List.getElem?_eq_getElem h3] at *
        simp only [Option.map_some, hl, Option.bind_some, e4, e5, e6, hlen, h3, if_true, List.getElem?_eraseIdx, Nat.lt_irrefl, if_false, List.getElem?_eq_getElem h3]
      · have h4 : ¬ i = 0 := by omega
        have e2' : n.next = none := by rw [e2, List.getElem?_eq_none (by omega)]; rfl
        have h5 : i - 1 < (g L.refCount).es.length := by omega
        have e3' : n.previous = some ((g L.refCount).es[i-1]).1 := by rw [e3, if_neg h4, List.getElem?_eq_getElem h5]; rfl
        simp only [e2', e3', Option.map_some, hl, Option.bind_some, e4, e5, e6, hlen, h3, if_false, List.getElem?_eraseIdx, show i - 1 < i by omega, if_true,
          List.getElem?_eq_getElem h5]

theorem findIdx_find {α : Type} (p : α → Bool) : ∀ (l : List α) (k : Nat), l.findIdx? p = some k → ∃ h : k < l.length, l.find? p = some l[k] := by
  intro l k h
  obtain ⟨hk, h1, h2⟩ := List.findIdx?_eq_some_iff_getElem.mp h
  exact ⟨hk, List.find?_eq_some_iff_getElem.mpr ⟨h1, k, hk, rfl, fun j hj => by simpa using h2 j hj⟩⟩

theorem listRemove_ok {V : Type} (c : Cfg V) (f : V → V → Bool) (hcmp : c.compare = some f) {s : St V} {sp : ListSpec.S V} {g : Nat → Grp V} (inv : Inv s sp g) {it : MIter} {l i : Nat} {L : Lst} {u : Nat} (h : At s g it l i L u)
    {xs : List V} (hxs : (g L.refCount).es.map (·.2.2) = xs) {a : Nat} {v : V} (ha : s.pays.cells a = some v) (hno : ∀ r, ∀ e ∈ (g r).es, e.2.1 ≠ a) :
    ∃ s' it' g' b, ListRemoveOpen c s l a it = some (s', it', b) ∧ (ListSpec.mStep f xs i (.listRemove v)).2.2 = .flag (decide (b = 0)) ∧
      Inv s' (sp.set l (some (ListSpec.mStep f xs i (.listRemove v)).1)) g' ∧ Post s' g' it' l (ListSpec.mStep f xs i (.listRemove v)).2.1 ∧
      s'.pays.cells a = some v ∧ (∀ r, ∀ e ∈ (g' r).es, e.2.1 ≠ a) := by
  have hi := h.lt
  have hit := h.eq
  have hl := h.hl
  have hus := h.us
  have hdet : ListDetach c s l = some s := detach_id (us_unshared inv hl hus)
  have hlen : xs.length = (g L.refCount).es.length := by rw [← hxs, List.length_map]
  obtain ⟨_, hlf, hcnt, hdl, hv⟩ := inv.lists l L hl
  have hval : sp.val l = some xs := by rw [hv, hxs]
  obtain ⟨hf1, hf2⟩ := find_ok c f hcmp hdl (inv.es _) ha (s.nodes.fresh + 1) 0 (by omega) (by have := elems_len inv hl; omega)
  rw [first_ptr inv hl, List.drop_zero, ← hlf] at hf1 hf2
  have hfi : xs.findIdx? (fun x => f x v) = (g L.refCount).es.findIdx? (fun e => f e.2.2 v) := by rw [← hxs, List.findIdx?_map]; rfl
  cases hF : xs.findIdx? (fun x => f x v) with
  | none =>
    have hany : (g L.refCount).es.any (fun e => f e.2.2 v) = false := by
      rw [hfi, List.findIdx?_eq_none_iff] at hF
      rw [List.any_eq_false]
      intro e he; simpa using hF e he
    rw [hany] at hf1
    refine ⟨s, it, g, -1, ?_, ?_, ?_, ?_, ha, hno⟩
    · simp [ListRemoveOpen, hl, hf1]
    · simp [ListSpec.mStep, hF]
    · simp only [ListSpec.mStep, hF]; rw [set_self hval]; exact inv
    · simp only [ListSpec.mStep, hF]; exact ⟨L, u, h⟩
  | some k =>
    clear h
    rw [hfi] at hF
    obtain ⟨hk, hfind⟩ := findIdx_find _ _ _ hF
    obtain ⟨_, hkf, _⟩ := List.findIdx?_eq_some_iff_getElem.mp hF
    have hany : (g L.refCount).es.any (fun e => f e.2.2 v) = true := List.any_eq_true.mpr ⟨_, List.getElem_mem hk, hkf⟩
    rw [hany] at hf1
    rw [hfind] at hf2
    rw [← hfi] at hF
    obtain ⟨n, h1, L', h2, pays', e1, e2, e3, e4, e5, e6, e7, key, hpk, _⟩ := inv_erase c inv hl hus hk
    have hnd : ∀ j (hj : j < (g L.refCount).es.length), (g L.refCount).es[i].1 = (g L.refCount).es[j].1 → i = j := by
      intro j hj hh
      have := hdl.nodup i j (by rw [ns_length]; exact hi) (by rw [ns_length]; exact hj)
      rw [ns_getElem, ns_getElem] at this
      exact this hh
    -- where the iterator goes
    have hmv : ∃ it', removeMoves s it (g L.refCount).es[k].1 = some it' ∧
        (match (if k < i then some (i - 1) else if i < k then some i else if i + 1 < xs.length then some i else if 0 < i then some (i - 1) else none : Option Nat) with
          | some j => j < ((g L.refCount).es.eraseIdx k).length ∧ it' = ⟨((g L.refCount).es.eraseIdx k)[j]?.map (·.1), l, true⟩
          | none => it'.valid = false ∧ it'.origin = l) := by
      by_cases hik : i = k
      · subst hik
        have hself : it.current = some ((g L.refCount).es[i]).1 := by rw [hit]; simp [List.getElem?_eq_getElem hi]
        simp only [removeMoves, hself, if_true, e1, Option.bind_eq_bind, Option.bind_some, Nat.lt_irrefl, if_false, hlen, List.length_eraseIdx, hi]
        by_cases h3 : i + 1 < (g L.refCount).es.length
        · rw [List.getElem?_eq_getElem h3] at e2
          simp only [e2, Option.map_some, h3, if_true]
          exact ⟨_, rfl, by omega, by rw [hit]; simp [List.getElem?_eraseIdx, List.getElem?_eq_getElem h3]⟩
        · have e2' : n.next = none := by rw [e2, List.getElem?_eq_none (by omega)]; rfl
          by_cases h4 : 0 < i
          · have h5 : i - 1 < (g L.refCount).es.length := by omega
            have e3' : n.previous = some ((g L.refCount).es[i-1]).1 := by rw [e3, if_neg (by omega), List.getElem?_eq_getElem h5]; rfl
            simp only [e2', e3', h3, if_false, h4, if_true]
            exact ⟨_, rfl, by omega, by rw [hit]; simp [List.getElem?_eraseIdx, List.getElem?_eq_getElem h5, show i - 1 < i by omega]⟩
          · have e3' : n.previous = none := by rw [e3, if_pos (by omega)]
            simp only [e2', e3', h3, if_false, h4]
            exact ⟨_, rfl, rfl, by rw [hit]⟩
      · have hne : ¬ it.current = some ((g L.refCount).es[k]).1 := by
          rw [hit]; simp only [List.getElem?_eq_getElem hi, Option.map_some, Option.some.injEq]
          intro hh; exact hik (hnd k hk hh)
        refine ⟨it, by simp only [removeMoves, hne, if_false], ?_⟩
        by_cases h3 : k < i
        · simp only [h3, if_true, List.length_eraseIdx, hk, List.getElem?_eraseIdx, show ¬ i - 1 < k by omega, if_false, show i - 1 + 1 = i by omega]
          exact ⟨by omega, hit⟩
        · have h4 : i < k := by omega
          simp only [h3, h4, if_true, if_false, List.length_eraseIdx, hk, List.getElem?_eraseIdx]
          exact ⟨by omega, hit⟩
    obtain ⟨it', m1, m2⟩ := hmv
    have hsp : (ListSpec.mStep f xs i (.listRemove v)).1 = ((g L.refCount).es.eraseIdx k).map (·.2.2) := by
      simp only [ListSpec.mStep, hF]
      rw [← List.eraseIdx_eq_take_drop_succ, ← hxs, eraseIdx_map']
    rw [hsp]
    refine ⟨_, it', _, 0, ?_, by simp [ListSpec.mStep, hF], key, ?_, ?_, ?_⟩
    rotate_left
    · simp only [ListSpec.mStep, hF]
      revert m2
      generalize (if k < i then some (i - 1) else if i < k then some i else if i + 1 < xs.length then some i else if 0 < i then some (i - 1) else none : Option Nat) = cur
      cases cur with
      | none => exact fun m2 => m2
      | some j =>
        intro m2
        refine ⟨_, u, if_pos rfl, ?_, ?_, ?_⟩
        · simp only [e7, gset_same]; exact hus
        · simp only [e7, gset_same]; exact m2.1
        · simp only [e7, gset_same]; exact m2.2
    · have := hpk a (fun e he => hno _ e he)
      exact this.trans ha
    · intro r e he
      by_cases hr : r = L.refCount
      · subst hr; rw [gset_same] at he; exact hno _ e (List.mem_of_mem_eraseIdx he)
      · rw [gset_other _ _ hr] at he; exact hno r e he
    · simp only [ListRemoveOpen, hl, Option.bind_eq_bind, Option.bind_some, hf1, if_true, hdet, hf2, Option.map_some, e1, m1, e4, e5, e6]

/-- Any call. -/
theorem mStep_ok {V : Type} (c : Cfg V) (f : V → V → Bool) (hcmp : c.compare = some f) {s : St V} {sp : ListSpec.S V} {g : Nat → Grp V} (inv : Inv s sp g) {it : MIter} {l i : Nat} {L : Lst} {u : Nat} (h : At s g it l i L u)
    {xs : List V} (hx : sp.val l = some xs) (op : ListSpec.MOp V) :
    ∃ s' it' g', mExec c s it op = some (s', it', (ListSpec.mStep f xs i op).2.2) ∧
      Inv s' (sp.set l (some (ListSpec.mStep f xs i op).1)) g' ∧ Post s' g' it' l (ListSpec.mStep f xs i op).2.1 := by
  have hxs : (g L.refCount).es.map (·.2.2) = xs := by
    obtain ⟨_, _, _, _, hv⟩ := inv.lists l L h.hl
    rw [hv] at hx; exact Option.some.inj hx
  cases op with
  | move op =>
    obtain ⟨it', e1, e2⟩ := move_ok c inv h op
    rw [hxs] at e1 e2
    refine ⟨s, it', g, e1, ?_, L, u, e2⟩
    simp only [ListSpec.mStep]; rw [set_self hx]; exact inv
  | prepend v =>
    obtain ⟨a1, a2, a3, a4⟩ := inv_alloc inv v
    have h' : At { s with pays := (s.pays.alloc v).2 } g it l i L u := ⟨h.hl, h.us, h.lt, h.eq⟩
    obtain ⟨s', L', e1, e2, e3, e4⟩ := prepend_ok c a1 h' a2 a3 a4
    have hsp : (ListSpec.mStep f xs i (.prepend v)).1 = (((g L.refCount).es.insertIdx i (s.nodes.fresh, (s.pays.alloc v).1, v)).map (·.2.2)) := by
      simp only [ListSpec.mStep]
      rw [map_insertIdx', hxs, insertIdx_take_drop]; rw [← hxs, List.length_map]; have := h.lt; omega
    rw [hsp]
    refine ⟨s', it, _, ?_, e2, L', u, e3, ?_, ?_, ?_⟩
    · simp only [mExec, e1, Option.map_some, ListSpec.mStep]
    · simp only [e4, gset_same]; exact h.us
    · simp only [e4, gset_same, List.length_insertIdx]; have := h.lt; split <;> omega
    · simp only [e4, gset_same]
      rw [List.getElem?_insertIdx, if_neg (by omega), if_neg (by omega)]
      exact h.eq
  | append v =>
    obtain ⟨a1, a2, a3, a4⟩ := inv_alloc inv v
    have h' : At { s with pays := (s.pays.alloc v).2 } g it l i L u := ⟨h.hl, h.us, h.lt, h.eq⟩
    obtain ⟨s', L', e1, e2, e3, e4⟩ := append_ok c a1 h' a2 a3 a4
    have hsp : (ListSpec.mStep f xs i (.append v)).1 = (((g L.refCount).es.insertIdx (i + 1) (s.nodes.fresh, (s.pays.alloc v).1, v)).map (·.2.2)) := by
      simp only [ListSpec.mStep]
      rw [map_insertIdx', hxs, insertIdx_take_drop]; rw [← hxs, List.length_map]; have := h.lt; omega
    rw [hsp]
    refine ⟨s', it, _, ?_, e2, L', u, e3, ?_, ?_, ?_⟩
    · simp only [mExec, e1, Option.map_some, ListSpec.mStep]
    · simp only [e4, gset_same]; exact h.us
    · simp only [e4, gset_same, List.length_insertIdx]; have := h.lt; split <;> omega
    · simp only [e4, gset_same]
      rw [List.getElem?_insertIdx, if_pos (by omega)]
      exact h.eq
  | remove => exact remove_ok c inv h f hxs
  | listRemove v =>
    obtain ⟨a1, a2, a3, a4⟩ := inv_alloc inv v
    have h' : At { s with pays := (s.pays.alloc v).2 } g it l i L u := ⟨h.hl, h.us, h.lt, h.eq⟩
    obtain ⟨s', it', g', b, e1, e2, e3, e4, e5, e6⟩ := listRemove_ok c f hcmp a1 h' hxs a2 a4
    have h5 : Inv { s' with pays := ⟨fun b => if b = (s.pays.alloc v).1 then none else s'.pays.cells b, s'.pays.fresh⟩ } _ g' :=
      inv_pays e3 _ (Nat.le_refl _) (fun r e he => by simp only [if_neg (e6 r e he)])
    refine ⟨_, it', g', ?_, h5, ?_⟩
    · have ho : it.origin = l := by rw [h.eq]
      simp only [mExec, ho, e1, Option.bind_some, Pays.free, e5, e2]
    · revert e4
      cases (ListSpec.mStep f xs i (.listRemove v)).2.1 with
      | none => exact fun h => h
      | some j => rintro ⟨L1, u1, h1⟩; exact ⟨L1, u1, h1.hl, h1.us, h1.lt, h1.eq⟩

theorem mRun_ok {V : Type} (c : Cfg V) (f : V → V → Bool) (hcmp : c.compare = some f) : ∀ (ops : List (ListSpec.MOp V)) {s : St V} {sp : ListSpec.S V} {g : Nat → Grp V} (_ : Inv s sp g)
    {it : MIter} {l : Nat} {cur : Option Nat} (_ : Post s g it l cur) {xs : List V} (_ : sp.val l = some xs) {r}, ListSpec.mRun f xs cur ops = some r →
    ∃ s' it' g', mExecs c s it ops = some (s', it', r.2.2) ∧ Inv s' (sp.set l (some r.1)) g' ∧ Post s' g' it' l r.2.1 := by
  intro ops
  induction ops with
  | nil =>
    intro s sp g inv it l cur hp xs hx r hr
    simp only [ListSpec.mRun, Option.some.injEq] at hr
    subst hr
    exact ⟨s, it, g, rfl, by rw [set_self hx]; exact inv, hp⟩
  | cons op ops ih =>
    intro s sp g inv it l cur hp xs hx r hr
    cases cur with
    | none => simp [ListSpec.mRun] at hr
    | some i =>
      obtain ⟨L, u, h⟩ := hp
      obtain ⟨s1, it1, g1, e1, e2, e3⟩ := mStep_ok c f hcmp inv h hx op
      simp only [ListSpec.mRun] at hr
      split at hr
      · cases hr
      · rename_i q hq
        cases hr
        obtain ⟨s2, it2, g2, k1, k2, k3⟩ := ih e2 e3 (by simp [ListSpec.S.set]) hq
        refine ⟨s2, it2, g2, by simp only [mExecs, e1, Option.bind_some, k1], ?_, k3⟩
        have : (sp.set l (some (ListSpec.mStep f xs i op).1)).set l (some q.1) = sp.set l (some q.1) := by
          simp only [ListSpec.S.set]; congr 1; funext b; by_cases hb : b = l <;> simp [hb]
        rw [this] at k2; exact k2

end CList
