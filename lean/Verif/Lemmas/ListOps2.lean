import Verif.Lemmas.ListOps
namespace CList
open Queue (Heap Node)

theorem find_ok {V : Type} (c : Cfg V) (f : V → V → Bool) (hcmp : c.compare = some f) {h : Heap Pay} {pays : Pays V}
    {fi la : Option Nat} {es : List (Nat × Nat × V)} (hdl : DL h.cells fi la (ns es)) {n : Nat} (hok : EsOk pays n es)
    {key : Nat} {kv : V} (hk : pays.cells key = some kv) :
    ∀ fuel i, i ≤ es.length → es.length < i + fuel →
      ListFindNode c h pays key fuel (es[i]?.map (·.1)) = some ((es.drop i).any (fun e => f e.2.2 kv)) ∧
      findAgain c h pays key fuel (es[i]?.map (·.1)) = some (((es.drop i).find? (fun e => f e.2.2 kv)).map (·.1)) := by
  intro fuel
  induction fuel with
  | zero => intro i h1 h2; omega
  | succ fuel ih =>
    intro i hile hi
    by_cases hlt : i < es.length
    · rw [List.getElem?_eq_getElem hlt, List.drop_eq_getElem_cons hlt]
      have hci := hdl.cell i (by rw [ns_length]; exact hlt)
      rw [ns_getElem] at hci
      have hnx : ((ns es)[i+1]?).map (·.1) = (es[i+1]?).map (·.1) := by simp [ns]; rfl
      rw [hnx] at hci
      have hpay := hok.pay _ (List.getElem_mem hlt)
      obtain ⟨ih1, ih2⟩ := ih (i+1) (by omega) (by omega)
      simp only [Option.map_some, ListFindNode, findAgain, hci, Option.bind_eq_bind, Option.bind_some, payMatches, hcmp, hpay, hk,
        List.find?_cons, List.any_cons]
      cases hff : f es[i].2.2 kv
      · simp only [Bool.false_or]; exact ⟨ih1, ih2⟩
      · simp
    · rw [List.getElem?_eq_none (by omega), List.drop_eq_nil_of_le (by omega)]
      simp [ListFindNode, findAgain]

theorem free_gone {α : Type} {h h' : Heap α} {a : Nat} (hf : h.free a = some h') : h'.cells a = none := by
  simp only [Heap.free] at hf
  split at hf
  · cases hf
  · cases hf; simp

theorem unlink_ok {V : Type} (c : Cfg V) {h : Heap Pay} {L : Lst} {l : List (Nat × Pay)} (hdl : DL h.cells L.first L.last l)
    (hlf : L.list = L.first) {k : Nat} (hk : k < l.length) :
    ∃ n h1 L' h2, h.cells l[k].1 = some n ∧ n.data = l[k].2 ∧ unlink c h L n = some (h1, L') ∧ h1.free l[k].1 = some h2 ∧
      DL h2.cells L'.first L'.last (l.eraseIdx k) ∧ L'.list = L'.first ∧ L'.nodeCount = L.nodeCount ∧ L'.refCount = L.refCount ∧
      L'.state = L.state ∧ h2.fresh = h.fresh ∧ ∀ b, (∀ p ∈ l, p.1 ≠ b) → h2.cells b = h.cells b := by
  have hck := hdl.cell k hk
  have hnd := hdl.nodup
  by_cases hk0 : k = 0
  · subst hk0
    by_cases hk1 : 1 < l.length
    · have hc1 := hdl.cell 1 hk1
      have h01 : l[0].1 ≠ l[1].1 := fun hh => by have := hnd _ _ _ _ hh; omega
      simp only [if_pos, List.getElem?_eq_getElem (show 0 + 1 < l.length by omega), Option.map_some] at hck
      refine ⟨_, h.put l[1].1 ⟨l[1].2, l[1+1]?.map (·.1), none⟩, { L with list := some l[1].1, first := some l[1].1 },
        { h.put l[1].1 ⟨l[1].2, l[1+1]?.map (·.1), none⟩ with
          cells := fun b => if b = l[0].1 then none else (h.put l[1].1 ⟨l[1].2, l[1+1]?.map (·.1), none⟩).cells b },
        hck, rfl, ?_, ?_, ?_, rfl, rfl, rfl, rfl, rfl, ?_⟩
      · simp [unlink, setPrev, hc1]
      · simp [Heap.free, hck, h01]
      · refine DL.erase hdl hk ?_ ?_ ?_ ?_ ?_
        · intro i hi h1 h2 h3
          have e0 : l[i].1 ≠ l[0].1 := fun hh => by have := hnd _ _ _ _ hh; omega
          have e1 : l[i].1 ≠ l[1].1 := fun hh => by have := hnd _ _ _ _ hh; omega
          simp [e0, e1]
        · intro hh; exact absurd rfl hh
        · intro _ n hn
          simp only [Nat.zero_add] at hn ⊢
          rw [hc1] at hn
          have hn := Option.some.inj hn
          subst hn
          simp [Ne.symm h01]
        · simp [List.getElem?_eq_getElem hk1]
        · rw [if_neg (by omega)]
      · intro b hbn
        have e0 : b ≠ l[0].1 := fun hh => hbn _ (List.getElem_mem (by omega)) hh.symm
        have e1 : b ≠ l[1].1 := fun hh => hbn _ (List.getElem_mem (by omega)) hh.symm
        simp [e0, e1]
    · rw [List.getElem?_eq_none (by omega)] at hck
      simp only [if_pos, Option.map_none] at hck
      refine ⟨_, h, { L with list := none, first := none, last := none },
        { h with cells := fun b => if b = l[0].1 then none else h.cells b }, hck, rfl, rfl, ?_, ?_, rfl, rfl, rfl, rfl, rfl, ?_⟩
      · simp [Heap.free, hck]
      · have : l.eraseIdx 0 = [] := by
          apply List.eq_nil_of_length_eq_zero; rw [List.length_eraseIdx, if_pos hk]; omega
        rw [this]; exact DL.nil _
      · intro b hbn
        have e0 : b ≠ l[0].1 := fun hh => hbn _ (List.getElem_mem (by omega)) hh.symm
        simp [e0]
  · have hcp := hdl.cell (k-1) (by omega)
    have hkp : l[k].1 ≠ (l[k-1]'(by omega)).1 := fun hh => by have := hnd _ _ _ _ hh; omega
    have hkp1 : k - 1 + 1 = k := by omega
    rw [if_neg hk0, List.getElem?_eq_getElem (show k - 1 < l.length by omega)] at hck
    by_cases hk1 : k + 1 < l.length
    · have hcn := hdl.cell (k+1) hk1
      rw [List.getElem?_eq_getElem hk1] at hck
      simp only [Option.map_some] at hck
      have hkn : l[k].1 ≠ l[k+1].1 := fun hh => by have := hnd _ _ _ _ hh; omega
      have hpn : (l[k-1]'(by omega)).1 ≠ l[k+1].1 := fun hh => by have := hnd _ _ _ _ hh; omega
      generalize hP : (Node.mk _ _ _ : Node Pay) = P at hcp
      generalize hN : (Node.mk _ _ _ : Node Pay) = N at hcn
      refine ⟨_, (h.put l[k+1].1 { N with previous := some (l[k-1]'(by omega)).1 }).put (l[k-1]'(by omega)).1 { P with next := some l[k+1].1 },
        L, { h with
          cells := fun b => if b = l[k].1 then none else ((h.put l[k+1].1 { N with previous := some (l[k-1]'(by omega)).1 }).put
            (l[k-1]'(by omega)).1 { P with next := some l[k+1].1 }).cells b },
        hck, rfl, ?_, ?_, ?_, hlf, rfl, rfl, rfl, rfl, ?_⟩
      · simp [unlink, setPrev, setNext, hcn, hcp, hpn]
      · simp [Heap.free, hck, hkp, hkn]
      · refine DL.erase hdl hk ?_ ?_ ?_ ?_ ?_
        · intro i hi h1 h2 h3
          have e0 : l[i].1 ≠ l[k].1 := fun hh => by have := hnd _ _ _ _ hh; omega
          have e1 : l[i].1 ≠ l[k+1].1 := fun hh => by have := hnd _ _ _ _ hh; omega
          have e2 : l[i].1 ≠ (l[k-1]'(by omega)).1 := fun hh => by have := hnd _ _ _ _ hh; omega
          simp [e0, e1, e2]
        · intro _ n hn
          rw [hcp] at hn
          have hn := Option.some.inj hn
          subst hn
          simp [Ne.symm hkp, List.getElem?_eq_getElem hk1]
        · intro _ n hn
          rw [hcn] at hn
          have hn := Option.some.inj hn
          subst hn
          simp [Ne.symm hkn, Ne.symm hpn, hk0, List.getElem?_eq_getElem (show k - 1 < l.length by omega)]
        · simp [hk0]
        · rw [if_neg (by omega)]
      · intro b hbn
        have e0 : b ≠ l[k].1 := fun hh => hbn _ (List.getElem_mem (by omega)) hh.symm
        have e1 : b ≠ l[k+1].1 := fun hh => hbn _ (List.getElem_mem (by omega)) hh.symm
        have e2 : b ≠ (l[k-1]'(by omega)).1 := fun hh => hbn _ (List.getElem_mem (by omega)) hh.symm
        simp [e0, e1, e2]
    · rw [List.getElem?_eq_none (by omega)] at hck
      simp only [Option.map_some, Option.map_none] at hck
      generalize hP : (Node.mk _ _ _ : Node Pay) = P at hcp
      refine ⟨_, h.put (l[k-1]'(by omega)).1 { P with next := none }, { L with last := some (l[k-1]'(by omega)).1 },
        { h with cells := fun b => if b = l[k].1 then none else (h.put (l[k-1]'(by omega)).1 { P with next := none }).cells b },
        hck, rfl, ?_, ?_, ?_, hlf, rfl, rfl, rfl, rfl, ?_⟩
      · simp [unlink, setNext, hcp]
      · simp [Heap.free, hck, hkp]
      · refine DL.erase hdl hk ?_ ?_ ?_ ?_ ?_
        · intro i hi h1 h2 h3
          have e0 : l[i].1 ≠ l[k].1 := fun hh => by have := hnd _ _ _ _ hh; omega
          have e2 : l[i].1 ≠ (l[k-1]'(by omega)).1 := fun hh => by have := hnd _ _ _ _ hh; omega
          simp [e0, e2]
        · intro _ n hn
          rw [hcp] at hn
          have hn := Option.some.inj hn
          subst hn
          simp [Ne.symm hkp, List.getElem?_eq_none (show l.length ≤ k + 1 by omega)]
        · intro hh; exact absurd hh hk1
        · simp [hk0]
        · rw [if_pos (by omega)]; simp [hk0, List.getElem?_eq_getElem (show k - 1 < l.length by omega)]
      · intro b hbn
        have e0 : b ≠ l[k].1 := fun hh => hbn _ (List.getElem_mem (by omega)) hh.symm
        have e2 : b ≠ (l[k-1]'(by omega)).1 := fun hh => hbn _ (List.getElem_mem (by omega)) hh.symm
        simp [e0, e2]

theorem eraseIdx_map' {α β : Type} (f : α → β) : ∀ (l : List α) (k : Nat), (l.map f).eraseIdx k = (l.eraseIdx k).map f
  | [], _ => by simp
  | x :: xs, 0 => by simp
  | x :: xs, k + 1 => by simp [eraseIdx_map' f xs k]

theorem eraseIdx_nodup {l : List Nat} (hnd : l.Nodup) {k : Nat} (hk : k < l.length) : l[k] ∉ l.eraseIdx k := by
  intro hm
  rw [List.mem_eraseIdx_iff_getElem] at hm
  obtain ⟨i, hi, hne, he⟩ := hm
  exact hne ((List.getElem_inj hnd).mp he)

theorem elems_len {V : Type} {s : St V} {sp : ListSpec.S V} {g : Nat → Grp V} (inv : Inv s sp g) {l : Nat} {L : Lst}
    (hl : s.lists l = some L) : (g L.refCount).es.length ≤ s.nodes.fresh := by
  obtain ⟨_, _, _, hdl, _⟩ := inv.lists l L hl
  have := length_le_of_nodup s.nodes.fresh (ns (g L.refCount).es) hdl.nodup (by
    intro q hq; simp only [ns, List.mem_map] at hq; obtain ⟨e, he, rfl⟩ := hq; exact (inv.es _).node_lt e he)
  simpa [ns_length] using this

theorem first_ptr {V : Type} {s : St V} {sp : ListSpec.S V} {g : Nat → Grp V} (inv : Inv s sp g) {l : Nat} {L : Lst}
    (hl : s.lists l = some L) : ((g L.refCount).es[0]?).map (·.1) = L.first := by
  obtain ⟨_, _, _, hdl, _⟩ := inv.lists l L hl
  rw [hdl.first_eq, List.head?_eq_getElem?]; simp [ns]; rfl

theorem inv_remove {V : Type} (c : Cfg V) (hcopy : c.copy = true) (f : V → V → Bool) (hcmp : c.compare = some f)
    {s : St V} {sp : ListSpec.S V} {g : Nat → Grp V}
    (inv : Inv s sp g) {l : Nat} {xs : List V} (hx : sp.val l = some xs) {a : Nat} {v : V} (ha : s.pays.cells a = some v)
    (halt : a < s.pays.fresh) (hno : ∀ r, ∀ e ∈ (g r).es, e.2.1 ≠ a) :
    ∃ s' g', ListRemove c s l a = some (s', if xs.any (fun x => f x v) then 0 else -1) ∧
      Inv s' (if xs.any (fun x => f x v) then sp.set l (some (xs.eraseP (fun x => f x v))) else sp) g' ∧
      s'.pays.cells a = some v ∧ (∀ r, ∀ e ∈ (g' r).es, e.2.1 ≠ a) ∧
      (Tight c s g (some a) → Tight c s' g' (some a)) := by
  obtain ⟨L, hl⟩ : ∃ L, s.lists l = some L := by
    cases hh : s.lists l with
    | none => rw [inv.dom l hh] at hx; cases hx
    | some L => exact ⟨L, rfl⟩
  obtain ⟨_, hlf0, _, hdl0, hval0⟩ := inv.lists l L hl
  obtain ⟨hf1, _⟩ := find_ok c f hcmp hdl0 (inv.es _) ha (s.nodes.fresh + 1) 0 (by omega) (by have := elems_len inv hl; omega)
  rw [first_ptr inv hl, List.drop_zero] at hf1
  rw [hval0] at hx
  have hxe0 := Option.some.inj hx
  have hany : (g L.refCount).es.any (fun e => f e.2.2 v) = xs.any (fun x => f x v) := by
    rw [← hxe0, List.any_map]; rfl
  rw [hany] at hf1
  cases hA : xs.any (fun x => f x v) with
  | false =>
    rw [hA] at hf1
    refine ⟨s, g, ?_, by simpa using inv, ha, hno, fun h => h⟩
    simp [ListRemove, hl, hlf0, hf1]
  | true =>
    rw [hA] at hf1
    obtain ⟨s1, g1, L1, u, d1, inv1, hl1, hus, hp1, hpf, hno1, htg⟩ := inv_detach c hcopy inv hl
    obtain ⟨_, hlf, hcnt, hdl, hval⟩ := inv1.lists l L1 hl1
    have hxe : (g1 L1.refCount).es.map (·.2.2) = xs := by
      rw [hval0, hxe0] at hval; exact (Option.some.inj hval).symm
    have hno' := hno1 a v ha hno halt
    have hav : s1.pays.cells a = some v := by rw [hp1 a halt]; exact ha
    have heok := inv1.es L1.refCount
    obtain ⟨_, hf2⟩ := find_ok c f hcmp hdl heok hav (s1.nodes.fresh + 1) 0 (by omega) (by have := elems_len inv1 hl1; omega)
    rw [first_ptr inv1 hl1, List.drop_zero] at hf2
    obtain ⟨q, hq⟩ : ∃ q, (g1 L1.refCount).es.find? (fun e => f e.2.2 v) = some q := by
      cases hh : (g1 L1.refCount).es.find? (fun e => f e.2.2 v) with
      | some q => exact ⟨q, rfl⟩
      | none =>
        rw [List.find?_eq_none] at hh
        rw [← hxe, List.any_map, List.any_eq_true] at hA
        obtain ⟨e, he, hfe⟩ := hA
        exact absurd hfe (hh e he)
    rw [hq] at hf2
    obtain ⟨hqf, k, hk, hke, hkf⟩ := List.find?_eq_some_iff_getElem.mp hq
    have herase : xs.eraseP (fun x => f x v) = ((g1 L1.refCount).es.eraseIdx k).map (·.2.2) := by
      rw [← hxe, List.eraseP_map]
      rw [eraseP_eq (g1 L1.refCount).es _ k hk (by simp only [Function.comp_apply]; rw [hke]; exact hqf)
        (fun j hj => by simpa using hkf j hj)]
    obtain ⟨n, h1, L', h2, u1, u2, u3, u4, u5, u6, u7, u8, u9, u10, u11⟩ :=
      unlink_ok c hdl hlf (k := k) (by rw [ns_length]; exact hk)
    rw [ns_getElem] at u1 u2 u4
    have hmem := List.getElem_mem hk
    have hpk := heok.pay _ hmem
    subst hke
    generalize hE : (g1 L1.refCount).es[k] = E at *
    obtain ⟨ea, ep, ev⟩ := E
    simp only at u1 u2 u4 hpk
    have hpnd : ∀ e ∈ (g1 L1.refCount).es.eraseIdx k, e.2.1 ≠ ep := by
      intro e he hh
      have h3 := eraseIdx_nodup heok.pay_nodup (k := k) (by simpa using hk)
      rw [List.getElem_map, hE, eraseIdx_map'] at h3
      exact h3 (by rw [List.mem_map]; exact ⟨e, he, hh⟩)
    have hsub : ∀ e ∈ (g1 L1.refCount).es.eraseIdx k, e ∈ (g1 L1.refCount).es := fun e he => List.mem_of_mem_eraseIdx he
    have key := inv_update inv1 hl1 hus (h' := h2) (pays' := ⟨fun b => if b = ep then none else s1.pays.cells b, s1.pays.fresh⟩)
      (L' := { L' with nodeCount := L'.nodeCount - 1, state := L'.state + 1 })
      (es' := (g1 L1.refCount).es.eraseIdx k) u8 u6 (by simp [u7, hcnt, List.length_eraseIdx, hk])
      (by simp only; rw [show ns ((g1 L1.refCount).es.eraseIdx k) = (ns (g1 L1.refCount).es).eraseIdx k by
            rw [ns, ns, eraseIdx_map']]; exact u5)
      (by omega) (by simp)
      ⟨fun e he => by rw [u10]; exact heok.node_lt e (hsub e he), fun e he => heok.pay_lt e (hsub e he),
        fun e he => by simp only [if_neg (hpnd e he)]; exact heok.pay e (hsub e he),
        by rw [← eraseIdx_map']; exact heok.pay_nodup.sublist (List.eraseIdx_sublist _ _)⟩
      (fun e he => Or.inl ⟨e, hsub e he, rfl⟩) (fun e he => Or.inl ⟨e, hsub e he, rfl⟩)
      (by intro r hr e he
          apply u11
          intro p hp
          simp only [ns, List.mem_map] at hp
          obtain ⟨d, hd, rfl⟩ := hp
          exact inv1.node_disj _ _ (Ne.symm hr) d hd e he)
      (by intro r hr e he
          have : e.2.1 ≠ ep := inv1.pay_disj _ _ hr e he _ hmem
          simp [this])
    refine ⟨_, _, ?_, by rw [if_pos rfl, herase]; exact key, ?_, ?_, fun tg => tight_update inv1 (htg _ tg (by intro b hb; cases hb; exact halt)) hl1 _ _ _ _ ?_ ?_⟩
    · simp [ListRemove, hl, hlf0, hf1, d1, hl1, hlf, hf2, u1, u3, u2, removePay, Pays.free, hpk, u4]
    · have : a ≠ ep := fun hh => hno' _ _ hmem hh.symm
      simp [St.putList, this, hav]
    · intro r e he
      by_cases hr : r = L1.refCount
      · subst hr; rw [gset_same] at he; exact hno' _ e (hsub e he)
      · rw [gset_other _ _ hr] at he; exact hno' r e he
    · intro b hb
      by_cases hbe : b = ea
      · subst hbe
        rw [free_gone u4] at hb
        exact absurd rfl hb
      · by_cases hin : ∃ e ∈ (g1 L1.refCount).es, e.1 = b
        · obtain ⟨e, he', heb⟩ := hin
          refine Or.inl ⟨e, ?_, heb⟩
          rw [List.mem_iff_getElem] at he'
          obtain ⟨j, hj, hje⟩ := he'
          rw [List.mem_eraseIdx_iff_getElem]
          refine ⟨j, hj, ?_, hje⟩
          intro hh; subst hh
          rw [hE] at hje; subst hje; exact hbe heb.symm
        · rw [u11 b (by
            intro p hp hpb
            simp only [ns, List.mem_map] at hp
            obtain ⟨d, hd, rfl⟩ := hp
            exact hin ⟨d, hd, hpb⟩)] at hb
          exact Or.inr ⟨hb, fun e he' heb => hin ⟨e, he', heb⟩⟩
    · intro b hb
      by_cases hbe : b = ep
      · simp only [hbe, if_true] at hb; exact absurd rfl hb
      · simp only [hbe, if_false] at hb
        by_cases hin : ∃ e ∈ (g1 L1.refCount).es, e.2.1 = b
        · obtain ⟨e, he', heb⟩ := hin
          refine Or.inl ⟨e, ?_, heb⟩
          rw [List.mem_iff_getElem] at he'
          obtain ⟨j, hj, hje⟩ := he'
          rw [List.mem_eraseIdx_iff_getElem]
          refine ⟨j, hj, ?_, hje⟩
          intro hh; subst hh
          rw [hE] at hje; subst hje; exact hbe heb.symm
        · exact Or.inr ⟨hb, fun e he' heb => hin ⟨e, he', heb⟩, id⟩

end CList
