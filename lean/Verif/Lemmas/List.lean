import Verif.Lemmas.DList
import Verif.Spec.List
namespace CList
open Queue (Heap Node)

@[simp] theorem put_cells {α : Type} (h : Heap α) (a b : Nat) (n : Node α) :
    (h.put a n).cells b = if b = a then some n else h.cells b := rfl
@[simp] theorem put_fresh {α : Type} (h : Heap α) (a : Nat) (n : Node α) : (h.put a n).fresh = h.fresh := rfl

theorem setNext_some {α : Type} {h : Heap α} {a : Nat} {n : Node α} (ha : h.cells a = some n) (v : Option Nat) :
    setNext h a v = some (h.put a { n with next := v }) := by simp [setNext, ha]
theorem setPrev_some {α : Type} {h : Heap α} {a : Nat} {n : Node α} (ha : h.cells a = some n) (v : Option Nat) :
    setPrev h a v = some (h.put a { n with previous := v }) := by simp [setPrev, ha]
theorem free_some {α : Type} {h : Heap α} {a : Nat} {n : Node α} (ha : h.cells a = some n) :
    h.free a = some { h with cells := fun b => if b = a then none else h.cells b } := by simp [Heap.free, ha]

/-! ### Reference counters -/

structure RCOk (c : Nat → Option (Node Nat)) (rc : RC) (us : List (Nat × Nat)) : Prop where
  dl : DL c rc.users rc.last us
  count : rc.userCount = us.length

theorem RCOk.congr {c c' : Nat → Option (Node Nat)} {rc : RC} {us : List (Nat × Nat)} (h : RCOk c rc us)
    (hc : ∀ p ∈ us, c' p.1 = c p.1) : RCOk c' rc us := ⟨h.dl.congr hc, h.count⟩

theorem attach_ok {h : Heap Nat} {rc : RC} {us : List (Nat × Nat)} (ok : RCOk h.cells rc us)
    (hb : ∀ p ∈ us, p.1 < h.fresh) (o : Nat) :
    ∃ h' rc', RefCountAttach h rc o = some (h', rc') ∧ RCOk h'.cells rc' (us ++ [(h.fresh, o)]) ∧ h'.fresh = h.fresh + 1 ∧
      ∀ b, b ≠ h.fresh → (∀ p ∈ us, p.1 ≠ b) → h'.cells b = h.cells b := by
  by_cases hne : us = []
  · subst hne
    have h1 := ok.dl.last_eq
    simp at h1
    refine ⟨(allocNode h ⟨o, none, none⟩).2, ⟨rc.userCount + 1, some h.fresh, some h.fresh⟩,
      by simp only [RefCountAttach, h1]; rfl, ⟨DL.singleton (by simp [allocNode]), by simp [ok.count]⟩, rfl, ?_⟩
    intro b hb1 _
    simp [allocNode, hb1]
  · have hlen : 0 < us.length := by cases us with | nil => exact absurd rfl hne | cons => simp
    have hlast : rc.last = some (us[us.length - 1]'(by omega)).1 := by
      rw [ok.dl.last_eq, List.getLast?_eq_getElem?, List.getElem?_eq_getElem (by omega)]; rfl
    have hcell := ok.dl.cell (us.length - 1) (by omega)
    have hlt := hb _ (List.getElem_mem (show us.length - 1 < us.length by omega))
    generalize hl : (us[us.length - 1]'(by omega)).1 = la at *
    have hmem : ∃ p ∈ us, p.1 = la := ⟨_, List.getElem_mem (show us.length - 1 < us.length by omega), hl⟩
    have hne2 : la ≠ h.fresh := by omega
    generalize hN : (Node.mk _ _ _ : Node Nat) = N at hcell
    refine ⟨((allocNode h ⟨o, none, none⟩).2.put la { N with next := some h.fresh }).put h.fresh ⟨o, none, some la⟩,
      ⟨rc.userCount + 1, rc.users, some h.fresh⟩, ?_,
      ⟨DL.snoc (a := h.fresh) (x := o) ok.dl hne (fun p hp => by have := hb p hp; omega) ?_ ?_ ?_, ?_⟩, rfl, ?_⟩
    · simp [RefCountAttach, allocNode, hlast, setNext, setPrev, hcell, hne2, Ne.symm hne2]
    · intro b h1 h2
      rw [hlast] at h2
      have h3 : b ≠ la := fun hh => h2 (by rw [hh])
      simp [h1, h3, allocNode]
    · simp [hlast]
    · intro b n h1 h2
      rw [hlast] at h1
      have h3 := Option.some.inj h1
      subst h3
      rw [hcell] at h2
      have h2 := Option.some.inj h2
      subst h2
      simp [hne2]
    · simp [ok.count]
    · intro b h1 h2
      obtain ⟨p, hp, hpe⟩ := hmem
      have h3 : b ≠ la := fun hh => h2 p hp (by rw [hpe, hh])
      simp [h1, h3, allocNode]

/-- Following the `next` pointers finds the first matching node. -/
theorem findUser_ok {h : Heap Nat} {f t : Option Nat} {us : List (Nat × Nat)} (ok : DL h.cells f t us) (o : Nat) :
    ∀ fuel i, i ≤ us.length → us.length < i + fuel →
      findUser h o fuel (us[i]?.map (·.1)) = some (((us.drop i).find? (fun p => decide (p.2 = o))).map (·.1)) := by
  intro fuel
  induction fuel with
  | zero => intro i h1 h2; omega
  | succ fuel ih =>
    intro i hile hi
    by_cases hlt : i < us.length
    · rw [List.getElem?_eq_getElem hlt, List.drop_eq_getElem_cons hlt]
      simp only [Option.map_some, findUser, ok.cell i hlt, Option.bind_eq_bind, Option.bind_some, List.find?_cons]
      by_cases ho : us[i].2 = o
      · simp [ho]
      · simp only [ho, if_false, decide_false]
        exact ih (i+1) (by omega) (by omega)
    · rw [List.getElem?_eq_none (by omega), List.drop_eq_nil_of_le (by omega)]
      simp [findUser]

theorem eraseP_eq {α : Type} (l : List α) (p : α → Bool) (k : Nat) (hk : k < l.length) (h1 : p l[k] = true)
    (h2 : ∀ j (hj : j < k), p (l[j]'(by omega)) = false) : l.eraseP p = l.eraseIdx k := by
  induction l generalizing k with
  | nil => simp at hk
  | cons x xs ih =>
    cases k with
    | zero => simp at h1; simp [h1]
    | succ k =>
      have h0 := h2 0 (by omega)
      simp at h0
      simp at h1 hk
      simp only [List.eraseP_cons, h0, List.eraseIdx_cons_succ, cond_false]
      rw [ih k hk h1 (fun j hj => by have := h2 (j+1) (by omega); simpa using this)]

/-- What `RefCountDetach` does, for every owner and every list of users. -/
theorem detach_ok {h : Heap Nat} {rc : RC} {us : List (Nat × Nat)} (ok : RCOk h.cells rc us)
    (hb : ∀ p ∈ us, p.1 < h.fresh) (o : Nat) :
    (us.length ≤ 1 → RefCountDetach h rc o = some (.ok h rc)) ∧
    (1 < us.length → (∀ p ∈ us, p.2 ≠ o) → RefCountDetach h rc o = some .programmingError) ∧
    (1 < us.length → (∃ p ∈ us, p.2 = o) → ∃ h' rc', RefCountDetach h rc o = some (.ok h' rc') ∧
      RCOk h'.cells rc' (us.eraseP (fun p => decide (p.2 = o))) ∧ h'.fresh = h.fresh ∧
      (∀ b, (∀ p ∈ us, p.1 ≠ b) → h'.cells b = h.cells b) ∧
      ∀ q, us.find? (fun p => decide (p.2 = o)) = some q → h'.cells q.1 = none) := by
  have hlen : us.length ≤ h.fresh := length_le_of_nodup _ _ ok.dl.nodup hb
  have hfind := findUser_ok ok.dl o (h.fresh + 1) 0 (by omega) (by omega)
  have hu : us[0]?.map (·.1) = rc.users := by rw [ok.dl.first_eq, List.head?_eq_getElem?]
  rw [hu, List.drop_zero] at hfind
  refine ⟨?_, ?_, ?_⟩
  · intro hle; simp [RefCountDetach, ok.count, hle]
  · intro hgt hno
    have : us.find? (fun p => decide (p.2 = o)) = none := by
      rw [List.find?_eq_none]; intro p hp; simpa using hno p hp
    rw [this] at hfind
    simp [RefCountDetach, ok.count, show ¬ us.length ≤ 1 by omega, hfind]
  · intro hgt hex
    obtain ⟨q, hq⟩ : ∃ q, us.find? (fun p => decide (p.2 = o)) = some q := by
      cases hf : us.find? (fun p => decide (p.2 = o)) with
      | some q => exact ⟨q, rfl⟩
      | none =>
        rw [List.find?_eq_none] at hf
        obtain ⟨p, hp, he⟩ := hex
        exact absurd (by simpa using he) (hf p hp)
    rw [hq] at hfind
    obtain ⟨hqo, k, hk, hke, hkf⟩ := List.find?_eq_some_iff_getElem.mp hq
    rw [eraseP_eq us _ k hk (by rw [hke]; exact hqo) (fun j hj => by simpa using hkf j hj)]
    subst hke
    have hck := ok.dl.cell k hk
    have hnd := ok.dl.nodup
    by_cases hk0 : k = 0
    · subst hk0
      have hc1 := ok.dl.cell 1 (by omega)
      have h01 : us[0].1 ≠ us[1].1 := fun hh => by have := hnd _ _ _ _ hh; omega
      simp only [if_pos, List.getElem?_eq_getElem (show 0 + 1 < us.length by omega), Option.map_some] at hck
      refine ⟨{ h.put us[1].1 ⟨us[1].2, us[1+1]?.map (·.1), none⟩ with
          cells := fun b => if b = us[0].1 then none else (h.put us[1].1 ⟨us[1].2, us[1+1]?.map (·.1), none⟩).cells b },
        { rc with users := some us[1].1, userCount := rc.userCount - 1 }, ?_, ⟨?_, ?_⟩, rfl, ?_, ?_⟩
      · simp [RefCountDetach, ok.count, show ¬ us.length ≤ 1 by omega, hfind, hck, setPrev, hc1, Heap.free, h01]
      · refine DL.erase ok.dl hk ?_ ?_ ?_ ?_ ?_
        · intro i hi h1 h2 h3
          have e0 : us[i].1 ≠ us[0].1 := fun hh => by have := hnd _ _ _ _ hh; omega
          have e1 : us[i].1 ≠ us[1].1 := fun hh => by have := hnd _ _ _ _ hh; omega
          simp [e0, e1]
        · intro hh; exact absurd rfl hh
        · intro _ n hn
          simp only [Nat.zero_add] at hn ⊢
          rw [hc1] at hn
          have hn := Option.some.inj hn
          subst hn
          simp [Ne.symm h01]
        · simp [List.getElem?_eq_getElem hgt]
        · rw [if_neg (by omega)]
      · simp [List.length_eraseIdx, hk, ok.count]
      · intro b hbn
        have e0 : b ≠ us[0].1 := fun hh => hbn _ (List.getElem_mem (by omega)) hh.symm
        have e1 : b ≠ us[1].1 := fun hh => hbn _ (List.getElem_mem (by omega)) hh.symm
        simp [e0, e1]
      · intro q' hq'; rw [hq] at hq'; cases hq'; simp
    · have hcp := ok.dl.cell (k-1) (by omega)
      have hkp : us[k].1 ≠ (us[k-1]'(by omega)).1 := fun hh => by have := hnd _ _ _ _ hh; omega
      have hkp1 : k - 1 + 1 = k := by omega
      rw [if_neg hk0, List.getElem?_eq_getElem (show k - 1 < us.length by omega)] at hck
      by_cases hk1 : k + 1 < us.length
      · have hcn := ok.dl.cell (k+1) hk1
        rw [List.getElem?_eq_getElem hk1] at hck
        simp only [Option.map_some] at hck
        have hkn : us[k].1 ≠ us[k+1].1 := fun hh => by have := hnd _ _ _ _ hh; omega
        have hpn : (us[k-1]'(by omega)).1 ≠ us[k+1].1 := fun hh => by have := hnd _ _ _ _ hh; omega
        generalize hP : (Node.mk _ _ _ : Node Nat) = P at hcp
        generalize hN : (Node.mk _ _ _ : Node Nat) = N at hcn
        refine ⟨{ (h.put (us[k-1]'(by omega)).1 { P with next := some us[k+1].1 }).put us[k+1].1
              { N with previous := some (us[k-1]'(by omega)).1 } with
            cells := fun b => if b = us[k].1 then none else ((h.put (us[k-1]'(by omega)).1 { P with next := some us[k+1].1 }).put us[k+1].1
              { N with previous := some (us[k-1]'(by omega)).1 }).cells b },
          { rc with userCount := rc.userCount - 1 }, ?_, ⟨?_, ?_⟩, rfl, ?_, ?_⟩
        · simp [RefCountDetach, ok.count, show ¬ us.length ≤ 1 by omega, hfind, hck, setPrev, setNext, hcp, hcn, Heap.free, hkp, hkn,
            Ne.symm hpn]
        · refine DL.erase ok.dl hk ?_ ?_ ?_ ?_ ?_
          · intro i hi h1 h2 h3
            have e0 : us[i].1 ≠ us[k].1 := fun hh => by have := hnd _ _ _ _ hh; omega
            have e1 : us[i].1 ≠ us[k+1].1 := fun hh => by have := hnd _ _ _ _ hh; omega
            have e2 : us[i].1 ≠ (us[k-1]'(by omega)).1 := fun hh => by have := hnd _ _ _ _ hh; omega
            simp [e0, e1, e2]
          · intro _ n hn
            rw [hcp] at hn
            have hn := Option.some.inj hn
            subst hn
            simp [Ne.symm hkp, hpn, List.getElem?_eq_getElem hk1]
          · intro _ n hn
            rw [hcn] at hn
            have hn := Option.some.inj hn
            subst hn
            simp [Ne.symm hkn, hk0, List.getElem?_eq_getElem (show k - 1 < us.length by omega)]
          · simp [hk0]
          · rw [if_neg (by omega)]
        · simp [List.length_eraseIdx, hk, ok.count]
        · intro b hbn
          have e0 : b ≠ us[k].1 := fun hh => hbn _ (List.getElem_mem (by omega)) hh.symm
          have e1 : b ≠ us[k+1].1 := fun hh => hbn _ (List.getElem_mem (by omega)) hh.symm
          have e2 : b ≠ (us[k-1]'(by omega)).1 := fun hh => hbn _ (List.getElem_mem (by omega)) hh.symm
          simp [e0, e1, e2]
        · intro q' hq'; rw [hq] at hq'; cases hq'; simp
      · rw [List.getElem?_eq_none (by omega)] at hck
        simp only [Option.map_some, Option.map_none] at hck
        generalize hP : (Node.mk _ _ _ : Node Nat) = P at hcp
        refine ⟨{ h.put (us[k-1]'(by omega)).1 { P with next := none } with
            cells := fun b => if b = us[k].1 then none else (h.put (us[k-1]'(by omega)).1 { P with next := none }).cells b },
          { rc with last := some (us[k-1]'(by omega)).1, userCount := rc.userCount - 1 }, ?_, ⟨?_, ?_⟩, rfl, ?_, ?_⟩
        · simp [RefCountDetach, ok.count, show ¬ us.length ≤ 1 by omega, hfind, hck, setNext, hcp, Heap.free, hkp]
        · refine DL.erase ok.dl hk ?_ ?_ ?_ ?_ ?_
          · intro i hi h1 h2 h3
            have e0 : us[i].1 ≠ us[k].1 := fun hh => by have := hnd _ _ _ _ hh; omega
            have e2 : us[i].1 ≠ (us[k-1]'(by omega)).1 := fun hh => by have := hnd _ _ _ _ hh; omega
            simp [e0, e2]
          · intro _ n hn
            rw [hcp] at hn
            have hn := Option.some.inj hn
            subst hn
            simp [Ne.symm hkp, List.getElem?_eq_none (show us.length ≤ k + 1 by omega)]
          · intro hh; exact absurd hh hk1
          · simp [hk0]
          · rw [if_pos (by omega)]; simp [hk0, List.getElem?_eq_getElem (show k - 1 < us.length by omega)]
        · simp [List.length_eraseIdx, hk, ok.count]
        · intro b hbn
          have e0 : b ≠ us[k].1 := fun hh => hbn _ (List.getElem_mem (by omega)) hh.symm
          have e2 : b ≠ (us[k-1]'(by omega)).1 := fun hh => hbn _ (List.getElem_mem (by omega)) hh.symm
          simp [e0, e2]
        · intro q' hq'; rw [hq] at hq'; cases hq'; simp

end CList
