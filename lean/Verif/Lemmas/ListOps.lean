import Verif.Lemmas.ListCow
namespace CList
open Queue (Heap Node)

/-- The API call `op`, made by a client that hands over a freshly allocated object holding the value; for `remove` the client
builds a key object, passes it and frees it afterwards. -/
def exec {V : Type} (c : Cfg V) (s : St V) : ListSpec.Op V → Option (St V × ListSpec.Out)
  | .new => do
    let (s, l) ← ListNew s
    some (s, .handle l)
  | .copy l => do
    let (s, r) ← ListCopy c s l
    match r with
    | some d => some (s, .handle d)
    | none => some (s, .result (-1))
  | .append l v => do
    let (a, pays) := s.pays.alloc v
    let s ← ListAppend c { s with pays } l (.ptr a)
    some (s, .result 0)
  | .prepend l v => do
    let (a, pays) := s.pays.alloc v
    let s ← ListPrepend c { s with pays } l (.ptr a)
    some (s, .result 0)
  | .remove l v => do
    let (a, pays) := s.pays.alloc v
    let (s, r) ← ListRemove c { s with pays } l a
    let pays ← s.pays.free a
    some ({ s with pays }, .result r)
  | .destroy l => do
    let s ← ListDestroy c s l
    some (s, .result 0)

def execs {V : Type} (c : Cfg V) (s : St V) : List (ListSpec.Op V) → Option (St V × List ListSpec.Out)
  | [] => some (s, [])
  | op :: ops => do
    let (s, o) ← exec c s op
    let (s, os) ← execs c s ops
    some (s, o :: os)

/-- Changing payloads nobody's list holds. -/
theorem inv_pays {V : Type} {s : St V} {sp : ListSpec.S V} {g : Nat → Grp V} (inv : Inv s sp g) (pays' : Pays V)
    (hf : s.pays.fresh ≤ pays'.fresh) (hc : ∀ r, ∀ e ∈ (g r).es, pays'.cells e.2.1 = s.pays.cells e.2.1) :
    Inv { s with pays := pays' } sp g :=
  { inv with
    es := fun r => ⟨(inv.es r).node_lt, fun e he => Nat.lt_of_lt_of_le ((inv.es r).pay_lt e he) hf,
      fun e he => by simp only; rw [hc r e he]; exact (inv.es r).pay e he, (inv.es r).pay_nodup⟩ }

theorem inv_alloc {V : Type} {s : St V} {sp : ListSpec.S V} {g : Nat → Grp V} (inv : Inv s sp g) (v : V) :
    Inv { s with pays := (s.pays.alloc v).2 } sp g ∧ (s.pays.alloc v).2.cells (s.pays.alloc v).1 = some v ∧
      (s.pays.alloc v).1 < (s.pays.alloc v).2.fresh ∧ ∀ r, ∀ e ∈ (g r).es, e.2.1 ≠ (s.pays.alloc v).1 := by
  refine ⟨inv_pays inv _ (by simp [Pays.alloc]) ?_, by simp [Pays.alloc], by simp [Pays.alloc], ?_⟩
  · intro r e he
    have := (inv.es r).pay_lt e he
    have h2 : e.2.1 ≠ s.pays.fresh := by omega
    simp [Pays.alloc, h2]
  · intro r e he
    have := (inv.es r).pay_lt e he
    simp [Pays.alloc]; omega

theorem tight_alloc {V : Type} {c : Cfg V} {s : St V} {g : Nat → Grp V} (tg : Tight c s g none) (v : V) :
    Tight c { s with pays := (s.pays.alloc v).2 } g (some (s.pays.alloc v).1) :=
  { tg with
    pay := fun hd a ha => by
      by_cases hb : a = s.pays.fresh
      · exact Or.inr (by rw [hb]; rfl)
      · simp only [Pays.alloc, hb, if_false] at ha
        rcases tg.pay hd a ha with h | h
        · exact Or.inl h
        · cases h }

theorem ns_fresh {V : Type} {s : St V} {sp : ListSpec.S V} {g : Nat → Grp V} (inv : Inv s sp g) (r : Nat) :
    ∀ p ∈ ns (g r).es, p.1 ≠ s.nodes.fresh := by
  intro p hp
  simp only [ns, List.mem_map] at hp
  obtain ⟨e, he, rfl⟩ := hp
  have := (inv.es r).node_lt e he
  simp; omega

theorem inv_append {V : Type} (c : Cfg V) (hcopy : c.copy = true) {s : St V} {sp : ListSpec.S V} {g : Nat → Grp V}
    (inv : Inv s sp g) {l : Nat} {xs : List V} (hx : sp.val l = some xs) {a : Nat} {v : V} (ha : s.pays.cells a = some v)
    (halt : a < s.pays.fresh) (hno : ∀ r, ∀ e ∈ (g r).es, e.2.1 ≠ a) :
    ∃ s' g', ListAppend c s l (.ptr a) = some s' ∧ Inv s' (sp.set l (some (xs ++ [v]))) g' ∧
      (Tight c s g (some a) → Tight c s' g' none) := by
  obtain ⟨L, hl⟩ : ∃ L, s.lists l = some L := by
    cases hh : s.lists l with
    | none => rw [inv.dom l hh] at hx; cases hx
    | some L => exact ⟨L, rfl⟩
  obtain ⟨s1, g1, L1, u, d1, inv1, hl1, hus, hp1, hpf, hno1, htg⟩ := inv_detach c hcopy inv hl
  obtain ⟨_, hlf, hcnt, hdl, hval⟩ := inv1.lists l L1 hl1
  rw [hval] at hx
  have hxe := Option.some.inj hx
  have hno' := hno1 a v ha hno halt
  have hav : s1.pays.cells a = some v := by rw [hp1 a halt]; exact ha
  have heok := inv1.es L1.refCount
  have hres : (es' : List (Nat × Nat × V)) → es' = (g1 L1.refCount).es ++ [(s1.nodes.fresh, a, v)] →
      EsOk s1.pays (s1.nodes.fresh + 1) es' ∧
      (∀ e ∈ es', (∃ d ∈ (g1 L1.refCount).es, d.1 = e.1) ∨ s1.nodes.fresh ≤ e.1) ∧
      (∀ e ∈ es', (∃ d ∈ (g1 L1.refCount).es, d.2.1 = e.2.1) ∨ (∀ r, ∀ d ∈ (g1 r).es, d.2.1 ≠ e.2.1)) := by
    intro es' he'
    subst he'
    refine ⟨⟨?_, ?_, ?_, ?_⟩, ?_, ?_⟩
    · intro d hd
      rcases List.mem_append.mp hd with hd | hd
      · have := heok.node_lt d hd; omega
      · simp at hd; subst hd; simp
    · intro d hd
      rcases List.mem_append.mp hd with hd | hd
      · exact heok.pay_lt d hd
      · simp at hd; subst hd; simp; omega
    · intro d hd
      rcases List.mem_append.mp hd with hd | hd
      · exact heok.pay d hd
      · simp at hd; subst hd; exact hav
    · rw [List.map_append, List.nodup_append]
      refine ⟨heok.pay_nodup, by simp, ?_⟩
      intro x hx y hy hxy
      simp at hy
      subst hy; subst hxy
      rw [List.mem_map] at hx
      obtain ⟨d, hd, hde⟩ := hx
      exact hno' _ d hd hde
    · intro d hd
      rcases List.mem_append.mp hd with hd | hd
      · exact Or.inl ⟨d, hd, rfl⟩
      · simp at hd; subst hd; exact Or.inr (Nat.le_refl _)
    · intro d hd
      rcases List.mem_append.mp hd with hd | hd
      · exact Or.inl ⟨d, hd, rfl⟩
      · simp at hd; subst hd; exact Or.inr hno'
  obtain ⟨hr1, hr2, hr3⟩ := hres _ rfl
  by_cases he : (g1 L1.refCount).es = []
  · have hf := hdl.first_eq; have ht := hdl.last_eq
    rw [he] at hf ht; simp [ns] at hf ht
    have key := inv_update inv1 hl1 hus
      (h' := ⟨fun b => if b = s1.nodes.fresh then some ⟨Pay.ptr a, none, none⟩ else s1.nodes.cells b, s1.nodes.fresh + 1⟩)
      (pays' := s1.pays)
      (L' := { L1 with list := some s1.nodes.fresh, first := some s1.nodes.fresh, last := some s1.nodes.fresh, nodeCount := L1.nodeCount + 1 })
      (es' := (g1 L1.refCount).es ++ [(s1.nodes.fresh, a, v)]) rfl rfl (by simp [hcnt]) (by
        rw [he]; exact DL.singleton (by simp)) (by simp) (Nat.le_refl _) hr1 hr2 hr3
      (by intro r hr e hee
          have := (inv1.es r).node_lt e hee
          have h2 : e.1 ≠ s1.nodes.fresh := by omega
          simp [h2]) (fun _ _ _ _ => rfl)
    refine ⟨_, _, ?_, by rw [← hxe]; rw [List.map_append] at key; exact key, fun tg => tight_update inv1 (htg _ tg (by intro b hb; cases hb; exact halt)) hl1 _ _ _ _ ?_ ?_⟩
    · simp only [ListAppend, d1, Option.bind_eq_bind, Option.bind_some, hl1, ht, allocNode, Heap.put]
    · intro b hb
      by_cases hbf : b = s1.nodes.fresh
      · exact Or.inl ⟨_, List.mem_append_right _ (List.mem_singleton.mpr rfl), hbf.symm⟩
      · simp only [hbf, if_false] at hb
        exact Or.inr ⟨hb, by rw [he]; simp⟩
    · intro b hb
      by_cases hba : b = a
      · exact Or.inl ⟨_, List.mem_append_right _ (List.mem_singleton.mpr rfl), hba.symm⟩
      · by_cases hin : ∃ e ∈ (g1 L1.refCount).es, e.2.1 = b
        · obtain ⟨e, he', heb⟩ := hin
          exact Or.inl ⟨e, List.mem_append_left _ he', heb⟩
        · exact Or.inr ⟨hb, fun e he' heb => hin ⟨e, he', heb⟩, fun hh => absurd (Option.some.inj hh).symm hba⟩
  · have hl0 : 0 < (g1 L1.refCount).es.length := by
      cases hh : (g1 L1.refCount).es with | nil => exact absurd hh he | cons => simp
    have hcl := hdl.cell ((g1 L1.refCount).es.length - 1) (by rw [ns_length]; omega)
    have hlast := hdl.last_eq
    rw [List.getLast?_eq_getElem?, ns_length, List.getElem?_eq_getElem (by rw [ns_length]; omega), Option.map_some] at hlast
    rw [ns_getElem] at hcl hlast
    have hmem := List.getElem_mem (show (g1 L1.refCount).es.length - 1 < (g1 L1.refCount).es.length by omega)
    have hlt := heok.node_lt _ hmem
    generalize hT : (g1 L1.refCount).es[(g1 L1.refCount).es.length - 1] = T at hcl hlast hmem hlt
    obtain ⟨ta, tp, tv⟩ := T
    simp only at hcl hlast hlt
    generalize hQ : (Node.mk _ _ _ : Node Pay) = Q at hcl
    have hne : ta ≠ s1.nodes.fresh := by omega
    have key := inv_update inv1 hl1 hus
      (h' := ⟨fun b => if b = ta then some { Q with next := some s1.nodes.fresh } else
        if b = s1.nodes.fresh then some ⟨Pay.ptr a, none, some ta⟩ else s1.nodes.cells b, s1.nodes.fresh + 1⟩)
      (pays' := s1.pays)
      (L' := { L1 with last := some s1.nodes.fresh, nodeCount := L1.nodeCount + 1 })
      (es' := (g1 L1.refCount).es ++ [(s1.nodes.fresh, a, v)]) rfl hlf (by simp [hcnt]) (by
        have := DL.snoc (c' := fun b => if b = ta then some { Q with next := some s1.nodes.fresh } else
            if b = s1.nodes.fresh then some ⟨Pay.ptr a, none, some ta⟩ else s1.nodes.cells b) (a := s1.nodes.fresh) (x := Pay.ptr a) hdl
          (by intro hh; simp [ns] at hh; exact he hh) (ns_fresh inv1 _)
          (by intro b h1 h2
              rw [hlast] at h2
              have h3 : b ≠ ta := fun hh => h2 (by rw [hh])
              simp [h1, h3])
          (by simp [Ne.symm hne, hlast])
          (by intro b n h1 h2
              rw [hlast] at h1
              have h1 := Option.some.inj h1
              subst h1
              rw [hcl] at h2
              have h2 := Option.some.inj h2
              subst h2
              simp)
        simpa [ns] using this) (by simp) (Nat.le_refl _) hr1 hr2 hr3
      (by intro r hr e hee
          have := (inv1.es r).node_lt e hee
          have h2 : e.1 ≠ s1.nodes.fresh := by omega
          have h3 : e.1 ≠ ta := fun hh => inv1.node_disj r _ hr e hee _ hmem hh
          simp [h2, h3]) (fun _ _ _ _ => rfl)
    refine ⟨_, _, ?_, by rw [← hxe]; rw [List.map_append] at key; exact key, fun tg => tight_update inv1 (htg _ tg (by intro b hb; cases hb; exact halt)) hl1 _ _ _ _ ?_ ?_⟩
    · simp only [ListAppend, d1, Option.bind_eq_bind, Option.bind_some, hl1, hlast, allocNode, setNext, setPrev, put_cells, if_true,
        if_false, hne, hcl]
      congr 2
      simp only [Heap.put]
      congr 2
      funext b
      by_cases hb : b = ta <;> by_cases hb2 : b = s1.nodes.fresh <;> simp [hb, hb2]
    · intro b hb
      by_cases hbf : b = s1.nodes.fresh
      · exact Or.inl ⟨_, List.mem_append_right _ (List.mem_singleton.mpr rfl), hbf.symm⟩
      · by_cases hin : ∃ e ∈ (g1 L1.refCount).es, e.1 = b
        · obtain ⟨e, he', heb⟩ := hin
          exact Or.inl ⟨e, List.mem_append_left _ he', heb⟩
        · have hbt : b ≠ ta := fun hh => hin ⟨_, hmem, hh.symm⟩
          simp only [hbf, hbt, if_false] at hb
          exact Or.inr ⟨hb, fun e he' heb => hin ⟨e, he', heb⟩⟩
    · intro b hb
      by_cases hba : b = a
      · exact Or.inl ⟨_, List.mem_append_right _ (List.mem_singleton.mpr rfl), hba.symm⟩
      · by_cases hin : ∃ e ∈ (g1 L1.refCount).es, e.2.1 = b
        · obtain ⟨e, he', heb⟩ := hin
          exact Or.inl ⟨e, List.mem_append_left _ he', heb⟩
        · exact Or.inr ⟨hb, fun e he' heb => hin ⟨e, he', heb⟩, fun hh => absurd (Option.some.inj hh).symm hba⟩

theorem inv_prepend {V : Type} (c : Cfg V) (hcopy : c.copy = true) {s : St V} {sp : ListSpec.S V} {g : Nat → Grp V}
    (inv : Inv s sp g) {l : Nat} {xs : List V} (hx : sp.val l = some xs) {a : Nat} {v : V} (ha : s.pays.cells a = some v)
    (halt : a < s.pays.fresh) (hno : ∀ r, ∀ e ∈ (g r).es, e.2.1 ≠ a) :
    ∃ s' g', ListPrepend c s l (.ptr a) = some s' ∧ Inv s' (sp.set l (some (v :: xs))) g' ∧
      (Tight c s g (some a) → Tight c s' g' none) := by
  obtain ⟨L, hl⟩ : ∃ L, s.lists l = some L := by
    cases hh : s.lists l with
    | none => rw [inv.dom l hh] at hx; cases hx
    | some L => exact ⟨L, rfl⟩
  obtain ⟨s1, g1, L1, u, d1, inv1, hl1, hus, hp1, hpf, hno1, htg⟩ := inv_detach c hcopy inv hl
  obtain ⟨_, hlf, hcnt, hdl, hval⟩ := inv1.lists l L1 hl1
  rw [hval] at hx
  have hxe := Option.some.inj hx
  have hno' := hno1 a v ha hno halt
  have hav : s1.pays.cells a = some v := by rw [hp1 a halt]; exact ha
  have heok := inv1.es L1.refCount
  have hres : (es' : List (Nat × Nat × V)) → es' = (s1.nodes.fresh, a, v) :: (g1 L1.refCount).es →
      EsOk s1.pays (s1.nodes.fresh + 1) es' ∧
      (∀ e ∈ es', (∃ d ∈ (g1 L1.refCount).es, d.1 = e.1) ∨ s1.nodes.fresh ≤ e.1) ∧
      (∀ e ∈ es', (∃ d ∈ (g1 L1.refCount).es, d.2.1 = e.2.1) ∨ (∀ r, ∀ d ∈ (g1 r).es, d.2.1 ≠ e.2.1)) := by
    intro es' he'
    subst he'
    refine ⟨⟨?_, ?_, ?_, ?_⟩, ?_, ?_⟩
    · intro d hd
      rcases List.mem_cons.mp hd with hd | hd
      · subst hd; simp
      · have := heok.node_lt d hd; omega
    · intro d hd
      rcases List.mem_cons.mp hd with hd | hd
      · subst hd; simp; omega
      · exact heok.pay_lt d hd
    · intro d hd
      rcases List.mem_cons.mp hd with hd | hd
      · subst hd; exact hav
      · exact heok.pay d hd
    · rw [List.map_cons, List.nodup_cons]
      refine ⟨?_, heok.pay_nodup⟩
      intro hx
      rw [List.mem_map] at hx
      obtain ⟨d, hd, hde⟩ := hx
      exact hno' _ d hd hde
    · intro d hd
      rcases List.mem_cons.mp hd with hd | hd
      · subst hd; exact Or.inr (Nat.le_refl _)
      · exact Or.inl ⟨d, hd, rfl⟩
    · intro d hd
      rcases List.mem_cons.mp hd with hd | hd
      · subst hd; exact Or.inr hno'
      · exact Or.inl ⟨d, hd, rfl⟩
  obtain ⟨hr1, hr2, hr3⟩ := hres _ rfl
  by_cases he : (g1 L1.refCount).es = []
  · have hf := hdl.first_eq; have ht := hdl.last_eq
    rw [he] at hf ht; simp [ns] at hf ht
    rw [← hlf] at hf
    have key := inv_update inv1 hl1 hus
      (h' := ⟨fun b => if b = s1.nodes.fresh then some ⟨Pay.ptr a, none, none⟩ else s1.nodes.cells b, s1.nodes.fresh + 1⟩)
      (pays' := s1.pays)
      (L' := { L1 with last := some s1.nodes.fresh, list := some s1.nodes.fresh, first := some s1.nodes.fresh, nodeCount := L1.nodeCount + 1 })
      (es' := (s1.nodes.fresh, a, v) :: (g1 L1.refCount).es) rfl rfl (by simp [hcnt]) (by
        rw [he]; exact DL.singleton (by simp)) (by simp) (Nat.le_refl _) hr1 hr2 hr3
      (by intro r hr e hee
          have := (inv1.es r).node_lt e hee
          have h2 : e.1 ≠ s1.nodes.fresh := by omega
          simp [h2]) (fun _ _ _ _ => rfl)
    refine ⟨_, _, ?_, by rw [← hxe]; rw [List.map_cons] at key; exact key, fun tg => tight_update inv1 (htg _ tg (by intro b hb; cases hb; exact halt)) hl1 _ _ _ _ ?_ ?_⟩
    · simp only [ListPrepend, d1, Option.bind_eq_bind, Option.bind_some, hl1, hf, allocNode, Heap.put]
    · intro b hb
      by_cases hbf : b = s1.nodes.fresh
      · exact Or.inl ⟨_, List.mem_cons_self .., hbf.symm⟩
      · simp only [hbf, if_false] at hb
        exact Or.inr ⟨hb, by rw [he]; simp⟩
    · intro b hb
      by_cases hba : b = a
      · exact Or.inl ⟨_, List.mem_cons_self .., hba.symm⟩
      · by_cases hin : ∃ e ∈ (g1 L1.refCount).es, e.2.1 = b
        · obtain ⟨e, he', heb⟩ := hin
          exact Or.inl ⟨e, List.mem_cons_of_mem _ he', heb⟩
        · exact Or.inr ⟨hb, fun e he' heb => hin ⟨e, he', heb⟩, fun hh => absurd (Option.some.inj hh).symm hba⟩
  · have hl0 : 0 < (g1 L1.refCount).es.length := by
      cases hh : (g1 L1.refCount).es with | nil => exact absurd hh he | cons => simp
    have hcl := hdl.cell 0 (by rw [ns_length]; omega)
    have hfirst := hdl.first_eq
    rw [List.head?_eq_getElem?, List.getElem?_eq_getElem (by rw [ns_length]; omega), Option.map_some] at hfirst
    rw [ns_getElem] at hcl hfirst
    have hmem := List.getElem_mem hl0
    have hlt := heok.node_lt _ hmem
    generalize hT : (g1 L1.refCount).es[0] = T at hcl hfirst hmem hlt
    obtain ⟨ta, tp, tv⟩ := T
    simp only at hcl hfirst hlt
    generalize hQ : (Node.mk _ _ _ : Node Pay) = Q at hcl
    have hne : ta ≠ s1.nodes.fresh := by omega
    have key := inv_update inv1 hl1 hus
      (h' := ⟨fun b => if b = ta then some { Q with previous := some s1.nodes.fresh } else
        if b = s1.nodes.fresh then some ⟨Pay.ptr a, some ta, none⟩ else s1.nodes.cells b, s1.nodes.fresh + 1⟩)
      (pays' := s1.pays)
      (L' := { L1 with list := some s1.nodes.fresh, first := some s1.nodes.fresh, nodeCount := L1.nodeCount + 1 })
      (es' := (s1.nodes.fresh, a, v) :: (g1 L1.refCount).es) rfl rfl (by simp [hcnt]) (by
        have := DL.cons (c' := fun b => if b = ta then some { Q with previous := some s1.nodes.fresh } else
            if b = s1.nodes.fresh then some ⟨Pay.ptr a, some ta, none⟩ else s1.nodes.cells b) (a := s1.nodes.fresh) (x := Pay.ptr a) hdl
          (by intro hh; simp [ns] at hh; exact he hh) (ns_fresh inv1 _)
          (by intro b h1 h2
              rw [hfirst] at h2
              have h3 : b ≠ ta := fun hh => h2 (by rw [hh])
              simp [h1, h3])
          (by simp [Ne.symm hne, hfirst])
          (by intro b n h1 h2
              rw [hfirst] at h1
              have h1 := Option.some.inj h1
              subst h1
              rw [hcl] at h2
              have h2 := Option.some.inj h2
              subst h2
              simp)
        simpa [ns] using this) (by simp) (Nat.le_refl _) hr1 hr2 hr3
      (by intro r hr e hee
          have := (inv1.es r).node_lt e hee
          have h2 : e.1 ≠ s1.nodes.fresh := by omega
          have h3 : e.1 ≠ ta := fun hh => inv1.node_disj r _ hr e hee _ hmem hh
          simp [h2, h3]) (fun _ _ _ _ => rfl)
    refine ⟨_, _, ?_, by rw [← hxe]; rw [List.map_cons] at key; exact key, fun tg => tight_update inv1 (htg _ tg (by intro b hb; cases hb; exact halt)) hl1 _ _ _ _ ?_ ?_⟩
    · simp only [ListPrepend, d1, Option.bind_eq_bind, Option.bind_some, hl1, hlf, hfirst, allocNode, setNext, setPrev, put_cells, if_true,
        if_false, hne, hcl]
      congr 2
      simp only [Heap.put]
      congr 2
      funext b
      by_cases hb : b = ta <;> by_cases hb2 : b = s1.nodes.fresh <;> simp [hb, hb2]
    · intro b hb
      by_cases hbf : b = s1.nodes.fresh
      · exact Or.inl ⟨_, List.mem_cons_self .., hbf.symm⟩
      · by_cases hin : ∃ e ∈ (g1 L1.refCount).es, e.1 = b
        · obtain ⟨e, he', heb⟩ := hin
          exact Or.inl ⟨e, List.mem_cons_of_mem _ he', heb⟩
        · have hbt : b ≠ ta := fun hh => hin ⟨_, hmem, hh.symm⟩
          simp only [hbf, hbt, if_false] at hb
          exact Or.inr ⟨hb, fun e he' heb => hin ⟨e, he', heb⟩⟩
    · intro b hb
      by_cases hba : b = a
      · exact Or.inl ⟨_, List.mem_cons_self .., hba.symm⟩
      · by_cases hin : ∃ e ∈ (g1 L1.refCount).es, e.2.1 = b
        · obtain ⟨e, he', heb⟩ := hin
          exact Or.inl ⟨e, List.mem_cons_of_mem _ he', heb⟩
        · exact Or.inr ⟨hb, fun e he' heb => hin ⟨e, he', heb⟩, fun hh => absurd (Option.some.inj hh).symm hba⟩

end CList
