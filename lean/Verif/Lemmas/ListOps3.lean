import Verif.Lemmas.ListOps2
namespace CList
open Queue (Heap Node)

theorem inv_new {V : Type} {s : St V} {sp : ListSpec.S V} {g : Nat → Grp V} (inv : Inv s sp g) :
    ∃ s' g', ListNew s = some (s', sp.next) ∧ Inv s' { sp.set sp.next (some []) with next := sp.next + 1 } g' ∧
      (∀ c, Tight c s g none → Tight c s' g' none) := by
  obtain ⟨uh2, rc2, a1, a2, a3, a4⟩ := attach_ok (h := s.users) (rc := RefCountNew) (us := []) ⟨DL.nil _, rfl⟩ (by simp) s.lFresh
  have hgF : g s.rcFresh = ⟨[], []⟩ := by
    have h1 := inv.rc_lt s.rcFresh (by omega)
    have h2 := inv.empty _ h1
    cases hgg : g s.rcFresh; rw [hgg] at h1 h2; simp at h1 h2; simp [h1, h2]
  have hown : ∀ b, ∀ Lb, s.lists b = some Lb → Lb.refCount ≠ s.rcFresh := by
    intro b Lb hb hh
    obtain ⟨⟨q, hq, _⟩, _⟩ := inv.lists b Lb hb
    rw [hh, hgF] at hq; simp at hq
  have hges : ∀ b, (gset g s.rcFresh ⟨[(s.users.fresh, s.lFresh)], []⟩ b).es = (g b).es := by
    intro b
    by_cases hb : b = s.rcFresh
    · subst hb; simp [hgF]
    · rw [gset_other _ _ hb]
  refine ⟨{ s with users := uh2, rcs := fun b => if b = s.rcFresh then some rc2 else s.rcs b, rcFresh := s.rcFresh + 1, lFresh := s.lFresh + 1,
                   lists := fun b => if b = s.lFresh then some { nodeCount := 0, state := 0, list := none, first := none, last := none, refCount := s.rcFresh } else s.lists b },
    gset g s.rcFresh ⟨[(s.users.fresh, s.lFresh)], []⟩, ?_, ?_, ?_⟩
  · simp [ListNew, newRefCount, a1, St.putList, inv.next]
  · have hn := inv.next
    refine ⟨by simp [inv.next], ?_, ?_, ?_, ?_, ?_, ?_, ?_, ?_, ?_, ?_, ?_, ?_, ?_⟩
    · intro b hb
      simp only at hb ⊢
      rw [if_neg (by omega)]; exact inv.dead b (by omega)
    · intro b hb
      simp only [ListSpec.S.set, hn] at hb ⊢
      split at hb
      · cases hb
      · rename_i h; rw [if_neg h]; exact inv.dom b hb
    · intro b Lb hb
      simp only [ListSpec.S.set, hn] at hb ⊢
      split at hb
      · rename_i h; subst h; cases hb
        simp only [gset_same, if_true]
        exact ⟨⟨_, List.mem_singleton.mpr rfl, rfl⟩, trivial, by simp, DL.nil _, rfl⟩
      · rename_i h
        rw [if_neg h, hges, gset_other _ _ (hown b Lb hb)]
        exact inv.lists b Lb hb
    · intro b hb
      simp only
      by_cases hbF : b = s.rcFresh
      · subst hbF; exact ⟨rc2, by simp, by simpa using a2⟩
      · rw [gset_other _ _ hbF] at hb ⊢
        obtain ⟨rcb, h1, h2⟩ := inv.rcs b hb
        refine ⟨rcb, by simp [hbF, h1], h2.congr ?_⟩
        intro q hq
        have := inv.us_lt b q hq
        exact a4 _ (by omega) (by simp)
    · intro b hb
      simp only at hb
      rw [gset_other _ _ (by omega)]
      exact inv.rc_lt b (by omega)
    · intro b hb
      rw [hges]
      by_cases hbF : b = s.rcFresh
      · subst hbF; simp at hb
      · rw [gset_other _ _ hbF] at hb; exact inv.empty b hb
    · intro b q hq
      simp only [a3]
      by_cases hbF : b = s.rcFresh
      · subst hbF; simp at hq; subst hq; simp
      · rw [gset_other _ _ hbF] at hq; have := inv.us_lt b q hq; omega
    · intro b q hq
      simp only
      by_cases hbF : b = s.rcFresh
      · subst hbF; simp at hq; subst hq; simp
      · rw [gset_other _ _ hbF] at hq
        obtain ⟨Lq, h1, h2⟩ := inv.owner b q hq
        have : q.2 ≠ s.lFresh := by intro hh; rw [hh, inv.dead _ (Nat.le_refl _)] at h1; cases h1
        exact ⟨Lq, by simp [this, h1], h2⟩
    · intro b
      by_cases hbF : b = s.rcFresh
      · subst hbF; simp
      · rw [gset_other _ _ hbF]; exact inv.owner_nodup b
    · intro b; rw [hges]; exact inv.es b
    · intro b b' hbb q hq q' hq'
      by_cases hbF : b = s.rcFresh
      · subst hbF; simp at hq; subst hq
        rw [gset_other _ _ (Ne.symm hbb)] at hq'
        have := inv.us_lt b' q' hq'
        simp only; omega
      · rw [gset_other _ _ hbF] at hq
        by_cases hbF' : b' = s.rcFresh
        · subst hbF'; simp at hq'; subst hq'
          have := inv.us_lt b q hq
          simp only; omega
        · rw [gset_other _ _ hbF'] at hq'; exact inv.us_disj b b' hbb q hq q' hq'
    · intro b b' hbb q hq q' hq'; rw [hges] at hq hq'; exact inv.node_disj b b' hbb q hq q' hq'
    · intro b b' hbb q hq q' hq'; rw [hges] at hq hq'; exact inv.pay_disj b b' hbb q hq q' hq'
  · intro c tg
    refine ⟨?_, ?_, ?_, ?_⟩
    · intro a ha
      obtain ⟨b, e, he, hea⟩ := tg.node a ha
      exact ⟨b, e, by rw [hges]; exact he, hea⟩
    · intro a ha
      simp only at ha
      by_cases hau : a = s.users.fresh
      · exact ⟨s.rcFresh, (s.users.fresh, s.lFresh), by simp, hau.symm⟩
      · rw [a4 a hau (by simp)] at ha
        obtain ⟨b, q, hq, hqa⟩ := tg.user a ha
        exact ⟨b, q, by rw [gset_other _ _ (by intro hh; subst hh; rw [hgF] at hq; simp at hq)]; exact hq, hqa⟩
    · intro b hb
      by_cases hbF : b = s.rcFresh
      · subst hbF; simp
      · simp only [hbF, if_false] at hb
        rw [gset_other _ _ hbF]; exact tg.rc b hb
    · intro hd a ha
      rcases tg.pay hd a ha with ⟨b, e, he, hea⟩ | h
      · exact Or.inl ⟨b, e, by rw [hges]; exact he, hea⟩
      · exact Or.inr h

theorem inv_copy {V : Type} (c : Cfg V) (hcopy : c.copy = true) {s : St V} {sp : ListSpec.S V} {g : Nat → Grp V}
    (inv : Inv s sp g) {l : Nat} {xs : List V} (hx : sp.val l = some xs) :
    ∃ s' g', ListCopy c s l = some (s', some sp.next) ∧ Inv s' { sp.set sp.next (some xs) with next := sp.next + 1 } g' ∧
      (Tight c s g none → Tight c s' g' none) := by
  obtain ⟨L, hl⟩ : ∃ L, s.lists l = some L := by
    cases hh : s.lists l with
    | none => rw [inv.dom l hh] at hx; cases hx
    | some L => exact ⟨L, rfl⟩
  obtain ⟨⟨p, hp, hpl⟩, hlf, hcnt, hdl, hval⟩ := inv.lists l L hl
  rw [hval] at hx
  have hxe := Option.some.inj hx
  obtain ⟨rc, hrc, hrok⟩ := inv.rcs L.refCount (by intro hh; rw [hh] at hp; simp at hp)
  obtain ⟨uh, rc', a1, a2, a3, a4⟩ := attach_ok hrok (inv.us_lt _) s.lFresh
  let g' := gset g L.refCount ⟨(g L.refCount).us ++ [(s.users.fresh, s.lFresh)], (g L.refCount).es⟩
  have hges : ∀ b, (g' b).es = (g b).es := by
    intro b
    by_cases hb : b = L.refCount
    · subst hb; simp [g']
    · simp only [g']; rw [gset_other _ _ hb]
  have hgr : (g' L.refCount).us = (g L.refCount).us ++ [(s.users.fresh, s.lFresh)] := by simp [g']
  have hgo : ∀ b, b ≠ L.refCount → (g' b).us = (g b).us := by intro b hb; simp only [g']; rw [gset_other _ _ hb]
  have hmem : ∀ b, ∀ q ∈ (g' b).us, q ∈ (g b).us ∨ (b = L.refCount ∧ q = (s.users.fresh, s.lFresh)) := by
    intro b q hq
    by_cases hb : b = L.refCount
    · subst hb
      rw [hgr] at hq
      rcases List.mem_append.mp hq with h | h
      · exact Or.inl h
      · exact Or.inr ⟨rfl, by simpa using h⟩
    · rw [hgo b hb] at hq; exact Or.inl hq
  have hsub : ∀ b, ∀ q ∈ (g b).us, q ∈ (g' b).us := by
    intro b q hq
    by_cases hb : b = L.refCount
    · subst hb; rw [hgr]; exact List.mem_append_left _ hq
    · rw [hgo b hb]; exact hq
  have hn := inv.next
  refine ⟨{ s with users := uh, rcs := fun b => if b = L.refCount then some rc' else s.rcs b, lFresh := s.lFresh + 1,
                   lists := fun b => if b = s.lFresh then some L else s.lists b }, g', ?_, ?_, ?_⟩
  · simp [ListCopy, hl, hcopy, St.putList, hrc, a1, St.putRC, hn]
  · refine ⟨by simp [inv.next], ?_, ?_, ?_, ?_, ?_, ?_, ?_, ?_, ?_, ?_, ?_, ?_, ?_⟩
    · intro b hb
      simp only at hb ⊢
      rw [if_neg (by omega)]; exact inv.dead b (by omega)
    · intro b hb
      simp only [ListSpec.S.set, hn] at hb ⊢
      split at hb
      · cases hb
      · rename_i h; rw [if_neg h]; exact inv.dom b hb
    · intro b Lb hb
      simp only [ListSpec.S.set, hn] at hb ⊢
      rw [hges]
      split at hb
      · rename_i h; subst h
        cases hb
        rw [if_pos rfl]
        exact ⟨⟨(s.users.fresh, s.lFresh), by rw [hgr]; simp, rfl⟩, hlf, hcnt, hdl, by rw [hxe]⟩
      · rename_i h
        rw [if_neg h]
        obtain ⟨⟨q, hq, hqb⟩, i2⟩ := inv.lists b Lb hb
        exact ⟨⟨q, hsub _ q hq, hqb⟩, i2⟩
    · intro b hb
      simp only
      by_cases hbr : b = L.refCount
      · subst hbr; exact ⟨rc', by simp, by rw [hgr]; exact a2⟩
      · rw [hgo b hbr] at hb ⊢
        obtain ⟨rcb, h1, h2⟩ := inv.rcs b hb
        refine ⟨rcb, by simp [hbr, h1], h2.congr ?_⟩
        intro q hq
        have := inv.us_lt b q hq
        exact a4 _ (by omega) (fun w hw => inv.us_disj _ _ (Ne.symm hbr) w hw q hq)
    · intro b hb
      simp only at hb
      have h1 := inv.rc_lt b hb
      rw [hgo b (by intro hh; subst hh; rw [h1] at hp; simp at hp)]
      exact h1
    · intro b hb
      rw [hges]
      by_cases hbr : b = L.refCount
      · subst hbr; rw [hgr] at hb; simp at hb
      · rw [hgo b hbr] at hb; exact inv.empty b hb
    · intro b q hq
      simp only [a3]
      rcases hmem b q hq with h | ⟨_, h⟩
      · have := inv.us_lt b q h; omega
      · subst h; simp
    · intro b q hq
      simp only
      rcases hmem b q hq with h | ⟨h0, h⟩
      · obtain ⟨Lq, h1, h2⟩ := inv.owner b q h
        have : q.2 ≠ s.lFresh := by intro hh; rw [hh, inv.dead _ (Nat.le_refl _)] at h1; cases h1
        exact ⟨Lq, by simp [this, h1], h2⟩
      · subst h; exact ⟨L, by simp, h0.symm⟩
    · intro b
      by_cases hbr : b = L.refCount
      · subst hbr
        rw [hgr, List.map_append, List.nodup_append]
        refine ⟨inv.owner_nodup _, by simp, ?_⟩
        intro x hx y hy hxy
        simp at hy; subst hy; subst hxy
        rw [List.mem_map] at hx
        obtain ⟨q, hq, hqe⟩ := hx
        obtain ⟨Lq, h1, _⟩ := inv.owner _ q hq
        rw [hqe, inv.dead _ (Nat.le_refl _)] at h1; cases h1
      · rw [hgo b hbr]; exact inv.owner_nodup b
    · intro b; rw [hges]; exact inv.es b
    · intro b b' hbb q hq q' hq'
      rcases hmem b q hq with h | ⟨h0, h⟩ <;> rcases hmem b' q' hq' with h' | ⟨h0', h'⟩
      · exact inv.us_disj b b' hbb q h q' h'
      · have := inv.us_lt b q h; subst h'; simp only; omega
      · have := inv.us_lt b' q' h'; subst h; simp only; omega
      · exact absurd (h0.trans h0'.symm) hbb
    · intro b b' hbb q hq q' hq'; rw [hges] at hq hq'; exact inv.node_disj b b' hbb q hq q' hq'
    · intro b b' hbb q hq q' hq'; rw [hges] at hq hq'; exact inv.pay_disj b b' hbb q hq q' hq'
  · intro tg
    refine ⟨?_, ?_, ?_, ?_⟩
    · intro a ha
      obtain ⟨b, e, he, hea⟩ := tg.node a ha
      exact ⟨b, e, by rw [hges]; exact he, hea⟩
    · intro a ha
      simp only at ha
      by_cases hau : a = s.users.fresh
      · exact ⟨L.refCount, (s.users.fresh, s.lFresh), by rw [hgr]; simp, hau.symm⟩
      · by_cases hin : ∃ q ∈ (g L.refCount).us, q.1 = a
        · obtain ⟨q, hq, hqa⟩ := hin
          exact ⟨L.refCount, q, hsub _ q hq, hqa⟩
        · rw [a4 a hau (fun q hq hqa => hin ⟨q, hq, hqa⟩)] at ha
          obtain ⟨b, q, hq, hqa⟩ := tg.user a ha
          exact ⟨b, q, hsub _ q hq, hqa⟩
    · intro b hb
      by_cases hbF : b = L.refCount
      · subst hbF; rw [hgr]; simp
      · simp only [hbF, if_false] at hb
        rw [hgo _ hbF]; exact tg.rc b hb
    · intro hd a ha
      rcases tg.pay hd a ha with ⟨b, e, he, hea⟩ | h
      · exact Or.inl ⟨b, e, by rw [hges]; exact he, hea⟩
      · exact Or.inr h

theorem destroyLoop_ok {V : Type} (c : Cfg V) {h0 : Heap Pay} {f t : Option Nat} {es : List (Nat × Nat × V)}
    (hdl : DL h0.cells f t (ns es)) :
    ∀ fuel i (h : Heap Pay) (pays : Pays V), i ≤ es.length → es.length < i + fuel →
      (∀ e ∈ es.drop i, h.cells e.1 = h0.cells e.1) → (∀ e ∈ es.drop i, pays.cells e.2.1 ≠ none) → ((es.drop i).map (·.2.1)).Nodup →
      ∃ h' pays', destroyLoop c fuel h pays (es[i]?.map (·.1)) = some (h', pays') ∧ h'.fresh = h.fresh ∧ pays'.fresh = pays.fresh ∧
        (∀ b, (∀ e ∈ es, e.1 ≠ b) → h'.cells b = h.cells b) ∧ (∀ b, (∀ e ∈ es, e.2.1 ≠ b) → pays'.cells b = pays.cells b) ∧
        (∀ b, h.cells b = none → h'.cells b = none) ∧ (∀ b, pays.cells b = none → pays'.cells b = none) ∧
        (∀ e ∈ es.drop i, h'.cells e.1 = none) ∧ (c.destroy = true → ∀ e ∈ es.drop i, pays'.cells e.2.1 = none) := by
  intro fuel
  induction fuel with
  | zero => intro i h pays h1 h2; omega
  | succ fuel ih =>
    intro i h pays hile hi hh hp hnd
    by_cases hlt : i < es.length
    · rw [List.getElem?_eq_getElem hlt]
      rw [List.drop_eq_getElem_cons hlt] at hh hp hnd
      have hci := hdl.cell i (by rw [ns_length]; exact hlt)
      rw [ns_getElem] at hci
      have hnx : ((ns es)[i+1]?).map (·.1) = (es[i+1]?).map (·.1) := by simp [ns]; rfl
      rw [hnx] at hci
      have hmem := List.getElem_mem hlt
      have hcell : h.cells es[i].1 = _ := (hh _ (List.mem_cons_self ..)).trans hci
      have hpay := hp _ (List.mem_cons_self ..)
      rw [List.map_cons, List.nodup_cons] at hnd
      have hndi : ∀ e ∈ es.drop (i+1), e.1 ≠ es[i].1 := by
        intro e he hee
        rw [List.mem_iff_getElem] at he
        obtain ⟨j, hj, hje⟩ := he
        rw [List.getElem_drop] at hje
        have hj' : i + 1 + j < es.length := by rw [List.length_drop] at hj; omega
        have := hdl.nodup i (i+1+j) (by rw [ns_length]; exact hlt) (by rw [ns_length]; exact hj') (by
          rw [ns_getElem, ns_getElem]; simp only; rw [hje, hee])
        omega
      obtain ⟨pays1, hp1, hpf1, hpc1, hpn1, hpz1⟩ : ∃ pays1, destroyPay c pays (Pay.ptr es[i].2.1) = some pays1 ∧ pays1.fresh = pays.fresh ∧
          (∀ b, es[i].2.1 ≠ b → pays1.cells b = pays.cells b) ∧ (c.destroy = true → pays1.cells es[i].2.1 = none) ∧
          (∀ b, pays.cells b = none → pays1.cells b = none) := by
        cases hd : c.destroy
        · exact ⟨pays, by simp [destroyPay, hd], rfl, fun _ _ => rfl, by simp, fun _ h => h⟩
        · cases hq : pays.cells es[i].2.1 with
          | none => exact absurd hq hpay
          | some w =>
            refine ⟨⟨fun b => if b = es[i].2.1 then none else pays.cells b, pays.fresh⟩, by simp [destroyPay, hd, Pays.free, hq], rfl, ?_, by simp, ?_⟩
            · intro b hb; simp [Ne.symm hb]
            · intro b hb; simp only; split
              · rfl
              · exact hb
      obtain ⟨h', pays', e1, e2, e3, e4, e5, e6, e7, e8, e9⟩ := ih (i+1) ⟨fun b => if b = es[i].1 then none else h.cells b, h.fresh⟩ pays1 (by omega) (by omega)
        (by intro e he
            simp only [if_neg (hndi e he)]
            exact hh e (List.mem_cons_of_mem _ he))
        (by intro e he
            rw [hpc1 _ (fun hee => hnd.1 (by rw [List.mem_map]; exact ⟨e, he, hee.symm⟩))]
            exact hp e (List.mem_cons_of_mem _ he)) hnd.2
      refine ⟨h', pays', ?_, by rw [e2], by rw [e3, hpf1], ?_, ?_, ?_, fun b hb => e7 b (hpz1 b hb), ?_, ?_⟩
      · simp only [Option.map_some, destroyLoop, hcell, Option.bind_eq_bind, Option.bind_some, hp1, Heap.free]
        exact e1
      · intro b hb
        rw [e4 b hb]
        simp only
        rw [if_neg (fun hh => hb _ hmem hh.symm)]
      · intro b hb
        rw [e5 b hb]
        exact hpc1 b (hb _ hmem)
      · intro b hb
        apply e6
        simp only
        split
        · rfl
        · exact hb
      · intro e he
        rw [List.drop_eq_getElem_cons hlt] at he
        rcases List.mem_cons.mp he with rfl | he
        · exact e6 _ (by simp)
        · exact e8 e he
      · intro hd e he
        rw [List.drop_eq_getElem_cons hlt] at he
        rcases List.mem_cons.mp he with rfl | he
        · exact e7 _ (hpn1 hd)
        · exact e9 hd e he
    · rw [List.getElem?_eq_none (by omega)]
      exact ⟨h, pays, by simp [destroyLoop], rfl, rfl, fun _ _ => rfl, fun _ _ => rfl, fun _ h => h, fun _ h => h, by rw [List.drop_eq_nil_of_le (by omega)]; simp,
        by rw [List.drop_eq_nil_of_le (by omega)]; simp⟩

theorem inv_destroy {V : Type} (c : Cfg V) {s : St V} {sp : ListSpec.S V} {g : Nat → Grp V}
    (inv : Inv s sp g) {l : Nat} {xs : List V} (hx : sp.val l = some xs) :
    ∃ s' g', ListDestroy c s l = some s' ∧ Inv s' (sp.set l none) g' ∧ (Tight c s g none → Tight c s' g' none) := by
  obtain ⟨L, hl⟩ : ∃ L, s.lists l = some L := by
    cases hh : s.lists l with
    | none => rw [inv.dom l hh] at hx; cases hx
    | some L => exact ⟨L, rfl⟩
  obtain ⟨⟨p, hp, hpl⟩, hlf, hcnt, hdl, hval⟩ := inv.lists l L hl
  obtain ⟨rc, hrc, hrok⟩ := inv.rcs L.refCount (by intro hh; rw [hh] at hp; simp at hp)
  generalize hr : L.refCount = r at *
  have hlne : ∀ b, s.lists b = none → b ≠ l ∨ True := fun _ _ => Or.inr trivial
  -- common facts: what remains after removing `l`
  have hremain : ∀ (us' : List (Nat × Nat)), us' = (g r).us.eraseP (fun p => decide (p.2 = l)) →
      (∀ q ∈ (g r).us, q.2 ≠ l → q ∈ us') ∧ (∀ q ∈ us', q ∈ (g r).us ∧ q.2 ≠ l) := by
    intro us' he
    subst he
    refine ⟨fun q hq hne => by rw [List.mem_eraseP_of_neg (by simpa using hne)]; exact hq, ?_⟩
    intro q hq
    refine ⟨eraseP_sub hq, ?_⟩
    intro hql
    have hnd := inv.owner_nodup r
    have h1 : l ∈ ((g r).us.eraseP (fun p => decide (p.2 = l))).map (·.2) := by
      rw [List.mem_map]; exact ⟨q, hq, hql⟩
    have h2 : ((g r).us.eraseP (fun p => decide (p.2 = l))).map (·.2) = ((g r).us.map (·.2)).erase l := by
      rw [List.erase_eq_eraseP, List.eraseP_map]
      congr 2
      funext x
      simp only [Function.comp_apply]
      by_cases hx : x.2 = l
      · simp [hx]
      · simp [hx, Ne.symm hx]
    rw [h2, hnd.mem_erase_iff] at h1
    exact h1.1 rfl
  by_cases hsh : 1 < (g r).us.length
  · have hshared : RefCountIsShared rc = true := by simp [RefCountIsShared, hrok.count, hsh]
    obtain ⟨_, _, hd3⟩ := detach_ok hrok (inv.us_lt r) l
    obtain ⟨uh, rc', d1, d2, d3, d4, d5⟩ := hd3 hsh ⟨p, hp, hpl⟩
    obtain ⟨hk1, hk2⟩ := hremain _ rfl
    have hne' : (g r).us.eraseP (fun p => decide (p.2 = l)) ≠ [] := by
      intro hh
      have := List.length_eraseP_of_mem hp (p := fun p => decide (p.2 = l)) (by simpa using hpl)
      rw [hh] at this; simp at this; omega
    generalize hU : (g r).us.eraseP (fun p => decide (p.2 = l)) = us' at *
    have hnd' : (us'.map (·.2)).Nodup := by
      rw [← hU]; exact List.Nodup.sublist ((List.eraseP_sublist).map _) (inv.owner_nodup r)
    have hges : ∀ b, (gset g r ⟨us', (g r).es⟩ b).es = (g b).es := by
      intro b
      by_cases hb : b = r
      · subst hb; simp
      · rw [gset_other _ _ hb]
    have hgus : ∀ b, ∀ q ∈ (gset g r ⟨us', (g r).es⟩ b).us, q ∈ (g b).us := by
      intro b q hq
      by_cases hb : b = r
      · subst hb; simp at hq; exact (hk2 q hq).1
      · rw [gset_other _ _ hb] at hq; exact hq
    have hgnl : ∀ b, ∀ q ∈ (gset g r ⟨us', (g r).es⟩ b).us, q.2 ≠ l := by
      intro b q hq hh
      by_cases hb : b = r
      · subst hb; simp at hq; exact (hk2 q hq).2 hh
      · rw [gset_other _ _ hb] at hq
        obtain ⟨Lq, h1, h2⟩ := inv.owner b q hq
        rw [hh, hl] at h1; cases h1; exact hb (h2.symm.trans hr)
    refine ⟨{ s with users := uh, rcs := fun b => if b = r then some rc' else s.rcs b, lists := fun b => if b = l then none else s.lists b },
      gset g r ⟨us', (g r).es⟩, ?_, ?_, ?_⟩
    · simp [ListDestroy, hl, hr, hrc, hshared, d1, St.putRC, St.putList]
    · refine ⟨inv.next, ?_, ?_, ?_, ?_, ?_, ?_, ?_, ?_, ?_, ?_, ?_, ?_, ?_⟩
      · intro b hb; simp only; split
        · rfl
        · exact inv.dead b hb
      · intro b hb
        simp only [ListSpec.S.set] at hb ⊢
        split at hb
        · rename_i h; rw [if_pos h]
        · rename_i h; rw [if_neg h]; exact inv.dom b hb
      · intro b Lb hb
        simp only [ListSpec.S.set] at hb ⊢
        split at hb
        · cases hb
        · rename_i h
          rw [if_neg h, hges]
          obtain ⟨⟨q, hq, hqb⟩, i2⟩ := inv.lists b Lb hb
          refine ⟨⟨q, ?_, hqb⟩, i2⟩
          by_cases hbr : Lb.refCount = r
          · rw [hbr] at hq ⊢; simp; exact hk1 q hq (by rw [hqb]; exact h)
          · rw [gset_other _ _ hbr]; exact hq
      · intro b hb
        simp only
        by_cases hbr : b = r
        · subst hbr; simp; exact d2
        · rw [gset_other _ _ hbr] at hb ⊢
          obtain ⟨rcb, h1, h2⟩ := inv.rcs b hb
          refine ⟨rcb, by simp [hbr, h1], h2.congr ?_⟩
          intro q hq
          exact d4 _ (fun w hw => inv.us_disj r b (Ne.symm hbr) w hw q hq)
      · intro b hb
        have h1 := inv.rc_lt b hb
        rw [gset_other _ _ (by intro hh; subst hh; rw [h1] at hp; simp at hp)]
        exact h1
      · intro b hb
        rw [hges]
        by_cases hbr : b = r
        · subst hbr; simp at hb; exact absurd hb hne'
        · rw [gset_other _ _ hbr] at hb; exact inv.empty b hb
      · intro b q hq; simp only [d3]; exact inv.us_lt b q (hgus b q hq)
      · intro b q hq
        obtain ⟨Lq, h1, h2⟩ := inv.owner b q (hgus b q hq)
        exact ⟨Lq, by simp [hgnl b q hq, h1], h2⟩
      · intro b
        by_cases hbr : b = r
        · subst hbr; simp; exact hnd'
        · rw [gset_other _ _ hbr]; exact inv.owner_nodup b
      · intro b; rw [hges]; exact inv.es b
      · intro b b' hbb q hq q' hq'; exact inv.us_disj b b' hbb q (hgus b q hq) q' (hgus b' q' hq')
      · intro b b' hbb q hq q' hq'; rw [hges] at hq hq'; exact inv.node_disj b b' hbb q hq q' hq'
      · intro b b' hbb q hq q' hq'; rw [hges] at hq hq'; exact inv.pay_disj b b' hbb q hq q' hq'
    · intro tg
      refine ⟨?_, ?_, ?_, ?_⟩
      · intro a ha
        obtain ⟨b, e, he, hea⟩ := tg.node a ha
        exact ⟨b, e, by rw [hges]; exact he, hea⟩
      · intro a ha
        simp only at ha
        by_cases hin : ∃ q ∈ (g r).us, q.1 = a
        · obtain ⟨q, hq, hqa⟩ := hin
          by_cases hql : q.2 = l
          · have hqp : (g r).us.find? (fun p => decide (p.2 = l)) = some q := by
              cases hf : (g r).us.find? (fun p => decide (p.2 = l)) with
              | none => rw [List.find?_eq_none] at hf; exact absurd (by simpa using hql) (hf q hq)
              | some q' =>
                have h1 := List.mem_of_find?_eq_some hf
                have h2 := List.find?_some hf
                simp at h2
                rw [nodup_map_inj (inv.owner_nodup r) h1 hq (by rw [h2, hql])]
            exact absurd (by rw [← hqa]; exact d5 q hqp) ha
          · exact ⟨r, q, by simp; exact hk1 q hq hql, hqa⟩
        · rw [d4 a (fun q hq hqa => hin ⟨q, hq, hqa⟩)] at ha
          obtain ⟨b, q, hq, hqa⟩ := tg.user a ha
          have hb : b ≠ r := by intro hh; subst hh; exact hin ⟨q, hq, hqa⟩
          exact ⟨b, q, by rw [gset_other _ _ hb]; exact hq, hqa⟩
      · intro b hb
        by_cases hbr : b = r
        · subst hbr; simpa using hne'
        · simp only [hbr, if_false] at hb
          rw [gset_other _ _ hbr]; exact tg.rc b hb
      · intro hd a ha
        rcases tg.pay hd a ha with ⟨b, e, he, hea⟩ | h
        · exact Or.inl ⟨b, e, by rw [hges]; exact he, hea⟩
        · exact Or.inr h
  · have hone : (g r).us = [p] := by
      cases hgu : (g r).us with
      | nil => rw [hgu] at hp; simp at hp
      | cons x xs =>
        rw [hgu] at hsh hp
        simp at hsh
        have : xs = [] := by cases xs with | nil => rfl | cons => simp at hsh
        subst this
        simp at hp; rw [hp]
    have hshared : RefCountIsShared rc = false := by simp [RefCountIsShared, hrok.count, hone]
    have hcnt1 : rc.userCount = 1 := by rw [hrok.count, hone]; rfl
    have hu : rc.users = some p.1 := by rw [hrok.dl.first_eq, hone]; rfl
    have hup : s.users.cells p.1 ≠ none := by
      have := hrok.dl.cell 0 (by rw [hone]; simp)
      simp only [hone] at this
      simp at this
      rw [this]; simp
    obtain ⟨un, hun⟩ := Option.ne_none_iff_exists'.mp hup
    have hlen := elems_len inv hl
    have hfp := first_ptr inv hl
    rw [hr] at hlen hfp
    obtain ⟨h', pays', e1, e2, e3, e4, e5, e6, e7, e8, e9⟩ := destroyLoop_ok c hdl (s.nodes.fresh + 1) 0 s.nodes s.pays (by omega) (by omega)
      (fun _ _ => rfl) (fun e he => by rw [(inv.es r).pay e (by simpa using he)]; simp) (by simpa using (inv.es r).pay_nodup)
    rw [hfp] at e1
    have hges : ∀ b, b ≠ r → gset g r ⟨[], []⟩ b = g b := fun b hb => gset_other _ _ hb
    have hsube : ∀ b, ∀ q ∈ (gset g r ⟨[], []⟩ b).es, b ≠ r ∧ q ∈ (g b).es := by
      intro b q hq
      by_cases hb : b = r
      · subst hb; simp at hq
      · rw [hges b hb] at hq; exact ⟨hb, hq⟩
    have hsubu : ∀ b, ∀ q ∈ (gset g r ⟨[], []⟩ b).us, b ≠ r ∧ q ∈ (g b).us := by
      intro b q hq
      by_cases hb : b = r
      · subst hb; simp at hq
      · rw [hges b hb] at hq; exact ⟨hb, hq⟩
    refine ⟨{ s with nodes := h', pays := pays', users := { s.users with cells := fun b => if b = p.1 then none else s.users.cells b },
                     rcs := fun b => if b = r then none else s.rcs b, lists := fun b => if b = l then none else s.lists b },
      gset g r ⟨[], []⟩, ?_, ?_, ?_⟩
    · simp [ListDestroy, hl, hr, hrc, hshared, e1, RefCountDestroy, hcnt1, hu, Heap.free, hun, St.putRC, St.putList]
    · refine ⟨inv.next, ?_, ?_, ?_, ?_, ?_, ?_, ?_, ?_, ?_, ?_, ?_, ?_, ?_⟩
      · intro b hb; simp only; split
        · rfl
        · exact inv.dead b hb
      · intro b hb
        simp only [ListSpec.S.set] at hb ⊢
        split at hb
        · rename_i h; rw [if_pos h]
        · rename_i h; rw [if_neg h]; exact inv.dom b hb
      · intro b Lb hb
        simp only [ListSpec.S.set] at hb ⊢
        split at hb
        · cases hb
        · rename_i h
          obtain ⟨⟨q, hq, hqb⟩, i2, i3, i4, i5⟩ := inv.lists b Lb hb
          have hbr : Lb.refCount ≠ r := by
            intro hh
            rw [hh, hone] at hq
            simp at hq; subst hq
            exact h (hqb.symm.trans hpl)
          rw [if_neg h, hges _ hbr]
          refine ⟨⟨q, hq, hqb⟩, i2, i3, i4.congr ?_, i5⟩
          intro x hx
          simp only [ns, List.mem_map] at hx
          obtain ⟨e, he, rfl⟩ := hx
          exact e4 _ (fun d hd => inv.node_disj _ _ (Ne.symm hbr) d hd e he)
      · intro b hb
        by_cases hbr : b = r
        · subst hbr; simp at hb
        · rw [hges b hbr] at hb ⊢
          obtain ⟨rcb, h1, h2⟩ := inv.rcs b hb
          refine ⟨rcb, by simp [hbr, h1], h2.congr ?_⟩
          intro q hq
          have : q.1 ≠ p.1 := fun hh => inv.us_disj b r hbr q hq p hp hh
          simp [this]
      · intro b hb
        have h1 := inv.rc_lt b hb
        rw [hges b (by intro hh; subst hh; rw [h1] at hp; simp at hp)]
        exact h1
      · intro b hb
        by_cases hbr : b = r
        · subst hbr; simp
        · rw [hges b hbr] at hb ⊢; exact inv.empty b hb
      · intro b q hq; exact inv.us_lt b q (hsubu b q hq).2
      · intro b q hq
        obtain ⟨hb, hq⟩ := hsubu b q hq
        obtain ⟨Lq, h1, h2⟩ := inv.owner b q hq
        have : q.2 ≠ l := by intro hh; rw [hh, hl] at h1; cases h1; exact hb (h2.symm.trans hr)
        exact ⟨Lq, by simp [this, h1], h2⟩
      · intro b
        by_cases hbr : b = r
        · subst hbr; simp
        · rw [hges b hbr]; exact inv.owner_nodup b
      · intro b
        by_cases hbr : b = r
        · subst hbr; simp; constructor <;> simp
        · rw [hges b hbr]
          have h1 := inv.es b
          exact ⟨fun e he => by simp only [e2]; exact h1.node_lt e he, fun e he => by simp only [e3]; exact h1.pay_lt e he,
            fun e he => by simp only; rw [e5 _ (fun d hd => inv.pay_disj _ _ (Ne.symm hbr) d hd e he)]; exact h1.pay e he, h1.pay_nodup⟩
      · intro b b' hbb q hq q' hq'; exact inv.us_disj b b' hbb q (hsubu b q hq).2 q' (hsubu b' q' hq').2
      · intro b b' hbb q hq q' hq'; exact inv.node_disj b b' hbb q (hsube b q hq).2 q' (hsube b' q' hq').2
      · intro b b' hbb q hq q' hq'; exact inv.pay_disj b b' hbb q (hsube b q hq).2 q' (hsube b' q' hq').2
    · intro tg
      refine ⟨?_, ?_, ?_, ?_⟩
      · intro a ha
        simp only at ha
        by_cases hin : ∃ e ∈ (g r).es, e.1 = a
        · obtain ⟨e, he, hea⟩ := hin
          exact absurd (by rw [← hea]; exact e8 e (by simpa using he)) ha
        · rw [e4 a (fun e he hea => hin ⟨e, he, hea⟩)] at ha
          obtain ⟨b, e, he, hea⟩ := tg.node a ha
          have hb : b ≠ r := by intro hh; subst hh; exact hin ⟨e, he, hea⟩
          exact ⟨b, e, by rw [hges b hb]; exact he, hea⟩
      · intro a ha
        simp only at ha
        split at ha
        · exact absurd rfl ha
        · rename_i hap
          obtain ⟨b, q, hq, hqa⟩ := tg.user a ha
          have hb : b ≠ r := by intro hh; subst hh; rw [hone] at hq; simp at hq; subst hq; exact hap hqa.symm
          exact ⟨b, q, by rw [hges b hb]; exact hq, hqa⟩
      · intro b hb
        simp only at hb
        split at hb
        · exact absurd rfl hb
        · rename_i hbr; rw [hges b hbr]; exact tg.rc b hb
      · intro hd a ha
        simp only at ha
        by_cases hin : ∃ e ∈ (g r).es, e.2.1 = a
        · obtain ⟨e, he, hea⟩ := hin
          exact absurd (by rw [← hea]; exact e9 hd e (by simpa using he)) ha
        · rw [e5 a (fun e he hea => hin ⟨e, he, hea⟩)] at ha
          rcases tg.pay hd a ha with ⟨b, e, he, hea⟩ | h
          · have hb : b ≠ r := by intro hh; subst hh; exact hin ⟨e, he, hea⟩
            exact Or.inl ⟨b, e, by rw [hges b hb]; exact he, hea⟩
          · exact Or.inr h

theorem readAll_ok {V : Type} {s : St V} {sp : ListSpec.S V} {g : Nat → Grp V} (inv : Inv s sp g) {l : Nat} {L : Lst}
    (hl : s.lists l = some L) : ∀ fuel i, i < (g L.refCount).es.length → (g L.refCount).es.length < i + fuel →
      readAll s fuel ⟨(g L.refCount).es[i]?.map (·.1), l, L.state⟩ = some (((g L.refCount).es.drop i).map (·.2.2)) := by
  obtain ⟨_, hlf, hcnt, hdl, hval⟩ := inv.lists l L hl
  have hok := inv.es L.refCount
  generalize (g L.refCount).es = es at *
  intro fuel
  induction fuel with
  | zero => intro i h1 h2; omega
  | succ fuel ih =>
    intro i hlt hi
    rw [List.drop_eq_getElem_cons hlt]
    have hci := hdl.cell i (by rw [ns_length]; exact hlt)
    rw [ns_getElem] at hci
    have hnx : ((ns es)[i+1]?).map (·.1) = (es[i+1]?).map (·.1) := by simp [ns]; rfl
    rw [hnx] at hci
    have hpay := hok.pay _ (List.getElem_mem hlt)
    simp only [readAll, ListIteratorData, iterUsable, hl, Option.bind_eq_bind, Option.bind_some, decide_true, if_true,
      List.getElem?_eq_getElem hlt, Option.map_some, hci, hpay, ListIteratorNext]
    by_cases h1 : i + 1 < es.length
    · have h2 := ih (i+1) h1 (by omega)
      rw [List.getElem?_eq_getElem h1] at h2
      simp only [List.getElem?_eq_getElem h1, Option.map_some, Option.bind_some, if_true] at h2 ⊢
      rw [h2]
      simp only [Option.bind_some, List.map_cons]
    · rw [List.getElem?_eq_none (by omega)]
      simp only [Option.map_none, Option.bind_some]
      rw [List.drop_eq_nil_of_le (by omega)]
      simp

theorem contents_ok {V : Type} {s : St V} {sp : ListSpec.S V} {g : Nat → Grp V} (inv : Inv s sp g) {l : Nat} {xs : List V}
    (hx : sp.val l = some xs) : contents s l = some xs ∧ ListCount s l = some xs.length := by
  obtain ⟨L, hl⟩ : ∃ L, s.lists l = some L := by
    cases hh : s.lists l with
    | none => rw [inv.dom l hh] at hx; cases hx
    | some L => exact ⟨L, rfl⟩
  obtain ⟨_, hlf, hcnt, hdl, hval⟩ := inv.lists l L hl
  rw [hval] at hx
  have hxe := Option.some.inj hx
  refine ⟨?_, by simp [ListCount, hl, hcnt, ← hxe]⟩
  have hfp := first_ptr inv hl
  by_cases he : (g L.refCount).es = []
  · rw [he] at hfp hxe
    simp at hfp hxe
    simp [contents, ListIteratorGet, hl, ← hfp, ← hxe]
  · have h0 : 0 < (g L.refCount).es.length := by
      cases hh : (g L.refCount).es with | nil => exact absurd hh he | cons => simp
    have := readAll_ok inv hl (s.nodes.fresh + 1) 0 h0 (by have := elems_len inv hl; omega)
    rw [hfp] at this
    rw [List.getElem?_eq_getElem h0, Option.map_some] at hfp
    rw [← hfp] at this
    simp only [List.drop_zero] at this
    simp only [contents, ListIteratorGet, hl, Option.bind_eq_bind, Option.bind_some, ← hfp, hlf, this, hxe]

theorem inv_exec {V : Type} (c : Cfg V) (hcopy : c.copy = true) (f : V → V → Bool) (hcmp : c.compare = some f)
    {s : St V} {sp : ListSpec.S V} {g : Nat → Grp V} (inv : Inv s sp g) (op : ListSpec.Op V) {sp' : ListSpec.S V} {o : ListSpec.Out}
    (hs : ListSpec.step f sp op = some (sp', o)) : ∃ s' g', exec c s op = some (s', o) ∧ Inv s' sp' g' ∧
      (Tight c s g none → Tight c s' g' none) := by
  cases op with
  | new =>
    simp [ListSpec.step] at hs
    obtain ⟨rfl, rfl⟩ := hs
    obtain ⟨s', g', h1, h2, h3⟩ := inv_new inv
    exact ⟨s', g', by simp [exec, h1], h2, h3 c⟩
  | copy l =>
    simp only [ListSpec.step, Option.map_eq_some_iff] at hs
    obtain ⟨xs, hx, he⟩ := hs
    cases he
    obtain ⟨s', g', h1, h2, h3⟩ := inv_copy c hcopy inv hx
    exact ⟨s', g', by simp [exec, h1], h2, h3⟩
  | append l v =>
    simp only [ListSpec.step, Option.map_eq_some_iff] at hs
    obtain ⟨xs, hx, he⟩ := hs
    cases he
    obtain ⟨a1, a2, a3, a4⟩ := inv_alloc inv v
    obtain ⟨s', g', h1, h2, h3⟩ := inv_append c hcopy a1 hx a2 a3 a4
    exact ⟨s', g', by simp [exec, h1], h2, fun tg => h3 (tight_alloc tg v)⟩
  | prepend l v =>
    simp only [ListSpec.step, Option.map_eq_some_iff] at hs
    obtain ⟨xs, hx, he⟩ := hs
    cases he
    obtain ⟨a1, a2, a3, a4⟩ := inv_alloc inv v
    obtain ⟨s', g', h1, h2, h3⟩ := inv_prepend c hcopy a1 hx a2 a3 a4
    exact ⟨s', g', by simp [exec, h1], h2, fun tg => h3 (tight_alloc tg v)⟩
  | remove l v =>
    simp only [ListSpec.step, Option.map_eq_some_iff] at hs
    obtain ⟨xs, hx, he⟩ := hs
    obtain ⟨a1, a2, a3, a4⟩ := inv_alloc inv v
    obtain ⟨s', g', h1, h2, h3, h4, h6⟩ := inv_remove c hcopy f hcmp a1 hx a2 a3 a4
    have h5 : Inv { s' with pays := ⟨fun b => if b = (s.pays.alloc v).1 then none else s'.pays.cells b, s'.pays.fresh⟩ }
        (if xs.any (fun x => f x v) then sp.set l (some (xs.eraseP (fun x => f x v))) else sp) g' :=
      inv_pays h2 _ (Nat.le_refl _) (fun r e he => by simp only [if_neg (h4 r e he)])
    refine ⟨{ s' with pays := ⟨fun b => if b = (s.pays.alloc v).1 then none else s'.pays.cells b, s'.pays.fresh⟩ }, g', ?_, ?_, ?_⟩
    rotate_left
    · have hsp : sp' = if xs.any (fun x => f x v) then sp.set l (some (xs.eraseP (fun x => f x v))) else sp := by
        split at he <;> (cases he; rename_i hh; simp [hh])
      rw [hsp]; exact h5
    · intro tg
      have h7 := h6 (tight_alloc tg v)
      refine ⟨h7.node, h7.user, h7.rc, ?_⟩
      intro hd a ha
      simp only at ha
      split at ha
      · exact absurd rfl ha
      · rename_i hab
        rcases h7.pay hd a ha with h | h
        · exact Or.inl h
        · exact absurd (Option.some.inj h).symm hab
    · have ho : o = .result (if xs.any (fun x => f x v) then 0 else -1) := by
        split at he <;> (cases he; rename_i hh; simp [hh])
      rw [ho]
      simp [exec, h1, Pays.free, h3]
  | destroy l =>
    simp only [ListSpec.step, Option.map_eq_some_iff] at hs
    obtain ⟨xs, hx, he⟩ := hs
    cases he
    obtain ⟨s', g', h1, h2, h3⟩ := inv_destroy c inv hx
    exact ⟨s', g', by simp [exec, h1], h2, h3⟩

theorem inv_execs {V : Type} (c : Cfg V) (hcopy : c.copy = true) (f : V → V → Bool) (hcmp : c.compare = some f) :
    ∀ (ops : List (ListSpec.Op V)) {s : St V} {sp : ListSpec.S V} {g : Nat → Grp V} (_ : Inv s sp g) {sp' : ListSpec.S V}
      {os : List ListSpec.Out}, ListSpec.run f sp ops = some (sp', os) → ∃ s' g', execs c s ops = some (s', os) ∧ Inv s' sp' g' ∧
        (Tight c s g none → Tight c s' g' none) := by
  intro ops
  induction ops with
  | nil =>
    intro s sp g inv sp' os h
    simp [ListSpec.run] at h
    obtain ⟨rfl, rfl⟩ := h
    exact ⟨s, g, rfl, inv, fun h => h⟩
  | cons op ops ih =>
    intro s sp g inv sp' os h
    simp only [ListSpec.run] at h
    split at h
    · cases h
    · rename_i sp1 o h1
      split at h
      · cases h
      · rename_i sp2 os2 h2
        cases h
        obtain ⟨s1, g1, e1, i1, t1⟩ := inv_exec c hcopy f hcmp inv op h1
        obtain ⟨s2, g2, e2, i2, t2⟩ := ih i1 h2
        exact ⟨s2, g2, by simp [execs, e1, e2], i2, fun h => t2 (t1 h)⟩

end CList
