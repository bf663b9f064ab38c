import Verif.Lemmas.ListAlone
import Verif.Spec.ListPtr
/-! # Lists without a compare function: removal by address -/
namespace CList
open Queue (Heap Node)

/-- The call `op` of a client that keeps, in every object it makes, the object's own number. -/
def execPtr {V : Type} (c : Cfg (Nat × V)) (s : St (Nat × V)) : ListPtrSpec.Op V → Option (St (Nat × V) × ListPtrSpec.Out)
  | .new => do
    let (s, l) ← ListNew s
    some (s, .handle l)
  | .copy l => do
    let (s, r) ← ListCopy c s l
    match r with
    | some d => some (s, .handle d)
    | none => some (s, .result (-1))
  | .append l v => do
    let (a, pays) := s.pays.alloc (s.pays.fresh, v)
    let s ← ListAppend c { s with pays } l (.ptr a)
    some (s, .result 0)
  | .prepend l v => do
    let (a, pays) := s.pays.alloc (s.pays.fresh, v)
    let s ← ListPrepend c { s with pays } l (.ptr a)
    some (s, .result 0)
  | .remove l k => do
    let (s, r) ← ListRemove c s l k
    some (s, .result r)
  | .destroy l => do
    let s ← ListDestroy c s l
    some (s, .result 0)

def execsPtr {V : Type} (c : Cfg (Nat × V)) (s : St (Nat × V)) : List (ListPtrSpec.Op V) → Option (St (Nat × V) × List ListPtrSpec.Out)
  | [] => some (s, [])
  | op :: ops => do
    let (s, o) ← execPtr c s op
    let (s, os) ← execsPtr c s ops
    some (s, o :: os)

theorem findPtr_ok {V : Type} (c : Cfg V) (hcmp : c.compare = none) {h : Heap Pay} {pays : Pays V}
    {fi la : Option Nat} {es : List (Nat × Nat × V)} (hdl : DL h.cells fi la (ns es)) (key : Nat) :
    ∀ fuel i, i ≤ es.length → es.length < i + fuel →
      ListFindNode c h pays key fuel (es[i]?.map (·.1)) = some ((es.drop i).any (fun e => decide (e.2.1 = key))) ∧
      findAgain c h pays key fuel (es[i]?.map (·.1)) = some (((es.drop i).find? (fun e => decide (e.2.1 = key))).map (·.1)) := by
  intro fuel
  induction fuel with
  | zero => intro i h1 h2; omega
  | succ fuel ih =>
    intro i hile hi
    by_cases hlt : i < es.length
    · rw [List.getElem?_eq_getElem hlt, List.drop_eq_getElem_cons hlt]
      have hci := hdl.cell i (by rw [ns_length]; exact hlt)
      rw [ns_getElem] at hci
      have hnx : ((ns es)[i+1]?).map (·.1) = (es[i+1]?).map (·.1) := by simp [ns]; rfl
      rw [hnx] at hci
      obtain ⟨ih1, ih2⟩ := ih (i+1) (by omega) (by omega)
      simp only [Option.map_some, ListFindNode, findAgain, hci, Option.bind_eq_bind, Option.bind_some, payMatches, hcmp,
        List.find?_cons, List.any_cons]
      by_cases hff : es[i].2.1 = key
      · simp [hff]
      · simp [hff]; exact ⟨by simpa using ih1, by simpa using ih2⟩
    · rw [List.getElem?_eq_none (by omega), List.drop_eq_nil_of_le (by omega)]
      simp [ListFindNode, findAgain]

theorem all_unshared {V : Type} {s : St V} {sp : ListSpec.S V} {g : Nat → Grp V} (inv : Inv s sp g) (al : AllAlone s) {l : Nat} {L : Lst} (hl : s.lists l = some L) :
    Unshared s l := by
  obtain ⟨⟨p, hp, _⟩, _⟩ := inv.lists l L hl
  obtain ⟨rc, hrc, _⟩ := inv.rcs L.refCount (by intro hh; rw [hh] at hp; simp at hp)
  exact ⟨L, rc, hl, hrc, by have := al _ _ hrc; simp [RefCountIsShared]; omega⟩

/-- ListRemove by address on a list nobody shares. -/
theorem removePtr_ok {V : Type} (c : Cfg V) (hcmp : c.compare = none) {s : St V} {sp : ListSpec.S V} {g : Nat → Grp V} (inv : Inv s sp g) (al : AllAlone s)
    {l : Nat} {L : Lst} (hl : s.lists l = some L) (key : Nat) :
    match (g L.refCount).es.findIdx? (fun e => decide (e.2.1 = key)) with
    | none => ListRemove c s l key = some (s, -1)
    | some k => ∃ s' g', ListRemove c s l key = some (s', 0) ∧ Inv s' (sp.set l (some (((g L.refCount).es.eraseIdx k).map (·.2.2)))) g' ∧
        (Tight c s g none → Tight c s' g' none) ∧ (∀ a v, s'.pays.cells a = some v → s.pays.cells a = some v) ∧ s'.pays.fresh = s.pays.fresh := by
  obtain ⟨u, hus⟩ : ∃ u, (g L.refCount).us = [(u, l)] := by
    obtain ⟨L', u, hl', h⟩ := unshared_us inv (all_unshared inv al hl)
    rw [hl] at hl'; cases hl'
    exact ⟨u, h⟩
  have hdet : ListDetach c s l = some s := detach_id (us_unshared inv hl hus)
  obtain ⟨_, hlf, hcnt, hdl, hv⟩ := inv.lists l L hl
  obtain ⟨hf1, hf2⟩ := findPtr_ok c hcmp (pays := s.pays) hdl key (s.nodes.fresh + 1) 0 (by omega) (by have := elems_len inv hl; omega)
  rw [first_ptr inv hl, List.drop_zero, ← hlf] at hf1 hf2
  cases hF : (g L.refCount).es.findIdx? (fun e => decide (e.2.1 = key)) with
  | none =>
    have hany : (g L.refCount).es.any (fun e => decide (e.2.1 = key)) = false := by
      rw [List.findIdx?_eq_none_iff] at hF
      rw [List.any_eq_false]
      intro e he; simpa using hF e he
    rw [hany] at hf1
    simp [ListRemove, hl, hf1]
  | some k =>
    obtain ⟨hk, hfind⟩ := findIdx_find _ _ _ hF
    obtain ⟨_, hkf, _⟩ := List.findIdx?_eq_some_iff_getElem.mp hF
    have hany : (g L.refCount).es.any (fun e => decide (e.2.1 = key)) = true := List.any_eq_true.mpr ⟨_, List.getElem_mem hk, hkf⟩
    rw [hany] at hf1
    rw [hfind] at hf2
    obtain ⟨n, h1, L', h2, pays', e1, e2, e3, e4, e5, e6, e7, key', hpk, ht, hmono, hfr⟩ := inv_erase c inv hl hus hk
    refine ⟨_, _, ?_, key', fun h => ht c h, hmono, hfr⟩
    simp [ListRemove, hl, hf1, hdet, hf2, e1, e4, e5, e6]

theorem free_mono {V : Type} {p p' : Pays V} {a : Nat} (h : p.free a = some p') : (∀ b v, p'.cells b = some v → p.cells b = some v) ∧ p'.fresh = p.fresh := by
  simp only [Pays.free] at h
  split at h
  · cases h
  · cases h
    refine ⟨fun b v hb => ?_, rfl⟩
    simp only at hb
    split at hb
    · cases hb
    · exact hb

theorem destroyLoop_mono {V : Type} (c : Cfg V) : ∀ (n : Nat) (h : Heap Pay) (pays : Pays V) (a : Option Nat) {r : Heap Pay × Pays V},
    destroyLoop c n h pays a = some r → (∀ b v, r.2.cells b = some v → pays.cells b = some v) ∧ r.2.fresh = pays.fresh := by
  intro n
  induction n with
  | zero => intro h pays a r hr; cases hr
  | succ n ih =>
    intro h pays a r hr
    cases a with
    | none => cases hr; exact ⟨fun _ _ h => h, rfl⟩
    | some a =>
      simp only [destroyLoop, Option.bind_eq_bind, Option.bind_eq_some_iff] at hr
      obtain ⟨nd, _, p1, h1, h2, _, hr⟩ := hr
      obtain ⟨m1, m2⟩ := ih _ _ _ hr
      have hp : (∀ b v, p1.cells b = some v → pays.cells b = some v) ∧ p1.fresh = pays.fresh := by
        simp only [destroyPay] at h1
        split at h1
        · split at h1
          · exact free_mono h1
          · cases h1; exact ⟨fun _ _ h => h, rfl⟩
          · cases h1
        · cases h1; exact ⟨fun _ _ h => h, rfl⟩
      exact ⟨fun b v hb => hp.1 b v (m1 b v hb), m2.trans hp.2⟩

theorem destroy_mono {V : Type} (c : Cfg V) {s s' : St V} {l : Nat} (h : AllAlone s) (ha : ListDestroy c s l = some s') :
    (∀ b v, s'.pays.cells b = some v → s.pays.cells b = some v) ∧ s'.pays.fresh = s.pays.fresh := by
  simp only [ListDestroy, Option.bind_eq_bind, Option.bind_eq_some_iff] at ha
  obtain ⟨L, _, rc, hr, ha⟩ := ha
  have := h _ _ hr
  rw [if_neg (by simp [RefCountIsShared]; omega)] at ha
  simp only [Option.bind_eq_some_iff] at ha
  obtain ⟨⟨nodes, pays⟩, hd, s1, h1, ha⟩ := ha
  have hm := destroyLoop_mono c _ _ _ _ hd
  cases ha
  have hs1 : s1.pays = pays := by
    simp only [RefCountDestroy, Option.bind_eq_bind, Option.bind_eq_some_iff] at h1
    obtain ⟨rc', hr', h1⟩ := h1
    split at h1
    · cases h1; rfl
    · split at h1
      · obtain ⟨u, _, h1⟩ := Option.bind_eq_some_iff.1 h1
        cases h1; rfl
      · cases h1; rfl
  simp only [St.putList, hs1]
  exact hm

theorem append_pays {V : Type} (c : Cfg V) {s s' : St V} {l : Nat} {p : Pay} (h : AllAlone s) (ha : ListAppend c s l p = some s') : s'.pays = s.pays := by
  simp only [ListAppend, Option.bind_eq_bind, Option.bind_eq_some_iff] at ha
  obtain ⟨s1, h1, L, _, ha⟩ := ha
  have := detach_alone c h h1
  subst this
  split at ha
  · simp only [Option.bind_eq_some_iff] at ha
    obtain ⟨h1, _, h2, _, ha⟩ := ha
    cases ha; rfl
  · cases ha; rfl

theorem prepend_pays {V : Type} (c : Cfg V) {s s' : St V} {l : Nat} {p : Pay} (h : AllAlone s) (ha : ListPrepend c s l p = some s') : s'.pays = s.pays := by
  simp only [ListPrepend, Option.bind_eq_bind, Option.bind_eq_some_iff] at ha
  obtain ⟨s1, h1, L, _, ha⟩ := ha
  have := detach_alone c h h1
  subst this
  split at ha
  · simp only [Option.bind_eq_some_iff] at ha
    obtain ⟨h1, _, h2, _, ha⟩ := ha
    cases ha; rfl
  · cases ha; rfl

/-- The state and the specification's state. -/
structure PtrInv {V : Type} (c : Cfg (Nat × V)) (s : St (Nat × V)) (sp : ListPtrSpec.S V) (g : Nat → Grp (Nat × V)) : Prop where
  inv : Inv s ⟨sp.val, sp.next⟩ g
  alone : AllAlone s
  tag : ∀ a v, s.pays.cells a = some v → v.1 = a
  objs : s.pays.fresh = sp.objs
  tight : Tight c s g none

theorem live {V : Type} {s : St V} {sp : ListSpec.S V} {g : Nat → Grp V} (inv : Inv s sp g) {l : Nat} {xs : List V} (hx : sp.val l = some xs) :
    ∃ L, s.lists l = some L ∧ (g L.refCount).es.map (·.2.2) = xs := by
  cases hh : s.lists l with
  | none => rw [inv.dom l hh] at hx; cases hx
  | some L =>
    have := (inv.lists l L hh).2.2.2.2
    rw [hx] at this
    exact ⟨L, rfl, (Option.some.inj this).symm⟩

/-- In a list's elements the address is the object's number. -/
theorem PtrInv.addr {V : Type} {c : Cfg (Nat × V)} {s : St (Nat × V)} {sp : ListPtrSpec.S V} {g : Nat → Grp (Nat × V)} (h : PtrInv c s sp g) (r : Nat) :
    ∀ e ∈ (g r).es, e.2.2.1 = e.2.1 := fun e he => h.tag _ _ ((h.inv.es r).pay e he)

theorem ptr_step {V : Type} (c : Cfg (Nat × V)) (hcopy : c.copy = false) (hcmp : c.compare = none) {s : St (Nat × V)} {sp sp' : ListPtrSpec.S V}
    {g : Nat → Grp (Nat × V)} (h : PtrInv c s sp g) {op : ListPtrSpec.Op V} {o : ListPtrSpec.Out} (hs : ListPtrSpec.Step sp op sp' o) :
    ∃ s' g', execPtr c s op = some (s', o) ∧ PtrInv c s' sp' g' := by
  obtain ⟨inv, al, tag, objs, tight⟩ := h
  cases hs with
  | new =>
    obtain ⟨s', g', h1, h2, h3⟩ := inv_new inv
    have hp : s'.pays = s.pays := by
      simp only [ListNew, newRefCount, RefCountAttach, RefCountNew, Option.bind_eq_bind, Option.bind_some, Option.some.injEq] at h1
      exact (congrArg (fun r => r.1.pays) h1).symm
    exact ⟨s', g', by simp [execPtr, h1], h2, new_alone al h1, by rw [hp]; exact tag, by rw [hp]; exact objs, h3 c tight⟩
  | copy l xs hx =>
    obtain ⟨L, hl, _⟩ := live inv hx
    exact ⟨s, g, by simp [execPtr, ListCopy, hl, hcopy], inv, al, tag, objs, tight⟩
  | append l xs v hx =>
    obtain ⟨a1, a2, a3, a4⟩ := inv_alloc inv (s.pays.fresh, v)
    obtain ⟨s', g', h1, h2, h3⟩ := inv_append { c with copy := true } rfl a1 hx a2 a3 a4
    have al' : AllAlone { s with pays := (s.pays.alloc (s.pays.fresh, v)).2 } := al
    rw [append_copy c _ al' true] at h1
    have hp := append_pays c al' h1
    refine ⟨s', g', by simp [execPtr, h1], ?_, append_alone c al' h1, ?_, ?_, (h3 (tight_alloc tight _).withCopy).withoutCopy⟩
    · rw [← objs]; exact h2
    · rw [hp]; intro a w hw
      simp only [Pays.alloc] at hw
      split at hw
      · cases hw; simp_all
      · exact tag a w hw
    · rw [hp, ← objs]; rfl
  | prepend l xs v hx =>
    obtain ⟨a1, a2, a3, a4⟩ := inv_alloc inv (s.pays.fresh, v)
    obtain ⟨s', g', h1, h2, h3⟩ := inv_prepend { c with copy := true } rfl a1 hx a2 a3 a4
    have al' : AllAlone { s with pays := (s.pays.alloc (s.pays.fresh, v)).2 } := al
    rw [prepend_copy c _ al' true] at h1
    have hp := prepend_pays c al' h1
    refine ⟨s', g', by simp [execPtr, h1], ?_, prepend_alone c al' h1, ?_, ?_, (h3 (tight_alloc tight _).withCopy).withoutCopy⟩
    · rw [← objs]; exact h2
    · rw [hp]; intro a w hw
      simp only [Pays.alloc] at hw
      split at hw
      · cases hw; simp_all
      · exact tag a w hw
    · rw [hp, ← objs]; rfl
  | remove l xs ys k v hx =>
    obtain ⟨L, hl, hes⟩ := live inv hx
    have had : ∀ e ∈ (g L.refCount).es, e.2.2.1 = e.2.1 := fun e he => tag _ _ ((inv.es _).pay e he)
    have hnd : ((g L.refCount).es.map (·.2.1)).Nodup := (inv.es _).pay_nodup
    have hsplit : ∃ A e B, (g L.refCount).es = A ++ e :: B ∧ A.map (·.2.2) = xs ∧ e.2.2 = (k, v) ∧ B.map (·.2.2) = ys := by
      obtain ⟨A, T, h1, h2, h3⟩ := List.map_eq_append_iff.1 hes
      obtain ⟨e, B, h4, h5, h6⟩ := List.map_eq_cons_iff.1 h3
      exact ⟨A, e, B, by rw [h1, h4], h2, h5, h6⟩
    obtain ⟨A, e, B, hAB, hA, he, hB⟩ := hsplit
    have hek : e.2.1 = k := by
      rw [← had e (by rw [hAB]; simp), he]
    have hfi : (g L.refCount).es.findIdx? (fun e => decide (e.2.1 = k)) = some A.length := by
      rw [hAB, List.findIdx?_append, List.findIdx?_eq_none_iff.2, List.findIdx?_cons]
      · simp [hek]
      · intro q hq
        rw [hAB, List.map_append, List.map_cons] at hnd
        have h7 := (List.nodup_append.1 hnd).2.2
        have := h7 q.2.1 (List.mem_map.2 ⟨q, hq, rfl⟩) e.2.1 (by simp)
        rw [hek] at this
        simpa using this
    have := removePtr_ok c hcmp inv al hl k
    rw [hfi] at this
    obtain ⟨s', g', h1, h2, h3, h4, h5⟩ := this
    have h6 : ((g L.refCount).es.eraseIdx A.length).map (·.2.2) = xs ++ ys := by
      rw [hAB, List.eraseIdx_append_of_length_le (Nat.le_refl _)]
      simp [hA, hB]
    rw [h6] at h2
    exact ⟨s', g', by simp [execPtr, h1], h2, remove_alone c al h1, fun a w hw => tag a w (h4 a w hw), h5.trans objs, h3 tight⟩
  | refused l l' xs xs' k v hx hx' hm hno =>
    obtain ⟨L, hl, hes⟩ := live inv hx
    have had : ∀ e ∈ (g L.refCount).es, e.2.2.1 = e.2.1 := fun e he => tag _ _ ((inv.es _).pay e he)
    have hfi : (g L.refCount).es.findIdx? (fun e => decide (e.2.1 = k)) = none := by
      rw [List.findIdx?_eq_none_iff]
      intro e he
      have := hno e.2.2 (by rw [← hes]; exact List.mem_map.2 ⟨e, he, rfl⟩)
      rw [had e he] at this
      simpa using this
    have := removePtr_ok c hcmp inv al hl k
    rw [hfi] at this
    exact ⟨s, g, by simp [execPtr, this], inv, al, tag, objs, tight⟩
  | destroy l xs hx =>
    obtain ⟨s', g', h1, h2, h3⟩ := inv_destroy c inv hx
    obtain ⟨h4, h5⟩ := destroy_mono c al h1
    exact ⟨s', g', by simp [execPtr, h1], h2, destroy_alone c al h1, fun a w hw => tag a w (h4 a w hw), h5.trans objs, h3 tight⟩

theorem ptr_run {V : Type} (c : Cfg (Nat × V)) (hcopy : c.copy = false) (hcmp : c.compare = none) {sp sp' : ListPtrSpec.S V}
    {ops : List (ListPtrSpec.Op V)} {os : List ListPtrSpec.Out} (hr : ListPtrSpec.Run sp ops sp' os) :
    ∀ {s : St (Nat × V)} {g : Nat → Grp (Nat × V)}, PtrInv c s sp g → ∃ s' g', execsPtr c s ops = some (s', os) ∧ PtrInv c s' sp' g' := by
  induction hr with
  | nil s => intro t g h; exact ⟨t, g, rfl, h⟩
  | cons hs _ ih =>
    intro s g h
    obtain ⟨s1, g1, e1, i1⟩ := ptr_step c hcopy hcmp h hs
    obtain ⟨s2, g2, e2, i2⟩ := ih i1
    exact ⟨s2, g2, by simp [execsPtr, e1, e2], i2⟩

end CList
