import Verif.Lemmas.SeqHeap
/-! # C182: several sequences in one memory -/
open SeqHeap SeqHeapSpec SeqSpec

namespace SeqHeap
open Seqn

def Rel (o : Obj) (v : Val) : Prop := Has o.s v.items ∧ o.s.hasDestroy = v.owns

structure R (w : World) (vs : List Val) (os : List Obj) : Prop where
  inv : Inv w.heap os
  held : w.held = os.map Obj.p
  len : os.length = vs.length
  rel : ∀ (i : Nat) (o : Obj) (v : Val), os[i]? = some o → vs[i]? = some v → Rel o v

theorem focus {α : Type} {os : List α} {i : Nat} {o : α} (h : os[i]? = some o) : os.Perm (o :: os.eraseIdx i) ∧ ∀ o', (os.set i o').Perm (o' :: os.eraseIdx i) := by
  obtain ⟨hi, rfl⟩ := List.getElem?_eq_some_iff.mp h
  constructor
  · conv => lhs; rw [← List.take_append_drop i os, List.drop_eq_getElem_cons hi]
    rw [List.eraseIdx_eq_take_drop_succ]
    exact List.perm_middle
  · intro o'
    rw [List.set_eq_take_append_cons_drop, if_pos hi, List.eraseIdx_eq_take_drop_succ]
    exact List.perm_middle

theorem set_same {α : Type} {l : List α} {i : Nat} {a : α} (h : l[i]? = some a) : l.set i a = l := by
  obtain ⟨hi, rfl⟩ := List.getElem?_eq_some_iff.mp h
  simp

theorem R.get {w : World} {vs : List Val} {os : List Obj} (r : R w vs os) {i : Nat} {v : Val} (hv : vs[i]? = some v) :
    ∃ o, os[i]? = some o ∧ Rel o v ∧ w.held[i]? = some o.p ∧ Inv w.heap (o :: os.eraseIdx i) := by
  have hi : i < vs.length := (List.getElem?_eq_some_iff.mp hv).1
  have hi2 : i < os.length := by rw [r.len]; exact hi
  have ho : os[i]? = some os[i] := by simp [hi2]
  exact ⟨_, ho, r.rel i _ v ho hv, by rw [r.held, List.getElem?_map, ho]; rfl, r.inv.perm (focus ho).1⟩

theorem R.set {w : World} {vs : List Val} {os : List Obj} (r : R w vs os) {i : Nat} {o : Obj} (ho : os[i]? = some o) {h' : Heap} {o' : Obj} {v' : Val}
    (hi : Inv h' (o' :: os.eraseIdx i)) (hp : o'.p = o.p) (hr : Rel o' v') : R ⟨h', w.held⟩ (vs.set i v') (os.set i o') := by
  have hlt : i < os.length := (List.getElem?_eq_some_iff.mp ho).1
  refine ⟨hi.perm ((focus ho).2 o').symm, ?_, by simp [r.len], ?_⟩
  · show w.held = _
    rw [r.held, List.map_set, hp]
    symm
    apply List.ext_getElem?
    intro k
    rw [List.getElem?_set]
    split
    · rename_i hk; subst hk; simp [hlt]; exact (congrArg Obj.p (List.getElem?_eq_some_iff.mp ho).2).symm
    · rfl
  · intro k o1 v1 h1 h2
    by_cases hk : i = k
    · subst hk
      rw [List.getElem?_set_self hlt] at h1
      rw [List.getElem?_set_self (by rw [← r.len]; exact hlt)] at h2
      simp only [Option.some.injEq] at h1 h2
      exact h1 ▸ h2 ▸ hr
    · rw [List.getElem?_set_ne hk] at h1 h2
      exact r.rel k o1 v1 h1 h2

theorem R.push {w : World} {vs : List Val} {os : List Obj} (r : R w vs os) {h' : Heap} {o' : Obj} {v' : Val}
    (hi : Inv h' (o' :: os)) (hr : Rel o' v') : R ⟨h', w.held ++ [o'.p]⟩ (vs ++ [v']) (os ++ [o']) := by
  refine ⟨hi.perm (List.perm_append_comm (l₁ := [o'])), by simp [r.held], by simp [r.len], ?_⟩
  intro k o1 v1 h1 h2
  rw [List.getElem?_append] at h1 h2
  rw [r.len] at h1
  split at h2
  · rename_i hk; rw [if_pos hk] at h1; exact r.rel k o1 v1 h1 h2
  · rename_i hk; rw [if_neg hk] at h1
    have : k - vs.length = 0 := by
      have := (List.getElem?_eq_some_iff.mp h2).1
      simp at this; omega
    rw [this] at h1 h2
    simp only [List.getElem?_cons_zero, Option.some.injEq] at h1 h2
    exact h1 ▸ h2 ▸ hr

theorem R.erase {w : World} {vs : List Val} {os : List Obj} (r : R w vs os) {i : Nat} (hlt : i < vs.length) {h' : Heap}
    (hi : Inv h' (os.eraseIdx i)) : R ⟨h', w.held.eraseIdx i⟩ (vs.eraseIdx i) (os.eraseIdx i) := by
  refine ⟨hi, by rw [r.held, List.eraseIdx_map], by simp [List.length_eraseIdx, r.len], ?_⟩
  intro k o v h1 h2
  rw [List.getElem?_eraseIdx] at h1 h2
  split at h1 <;> rename_i hk
  · rw [if_pos hk] at h2; exact r.rel k o v h1 h2
  · rw [if_neg hk] at h2; exact r.rel _ o v h1 h2

theorem R.same {w : World} {vs : List Val} {os : List Obj} (r : R w vs os) {h' : Heap} (hi : Inv h' os) : R ⟨h', w.held⟩ vs os :=
  ⟨hi, r.held, r.len, r.rel⟩

theorem kill_eq {o : Obj} {v : Val} (h : o.s.hasDestroy = v.owns) (l : List Nat) : (if o.s.hasDestroy then l else []) = v.kill l := by
  rw [h]; rfl

/-- A function inside one sequence. -/
theorem R.inPlace {w : World} {vs : List Val} {os : List Obj} (r : R w vs os) {i : Nat} {v : Val} (hv : vs[i]? = some v)
    {f : Seqn.Seq Nat → Option (Seqn.Seq Nat × List Nat)} {l d : List Nat}
    (hf : ∀ s, Has s v.items → s.hasDestroy = v.owns → ∃ s', f s = some (s', d) ∧ Has s' l ∧ s'.hasDestroy = s.hasDestroy ∧ s'.capacity = s.capacity) :
    ∃ p h' os', w.held[i]? = some p ∧ SeqHeap.inPlace w.heap p f = some h' ∧ R ⟨h', w.held⟩ (vs.set i ⟨v.owns, l⟩) os' ∧ h'.destroyed = w.heap.destroyed ++ d := by
  obtain ⟨o, ho, ⟨hh, hd⟩, hp, hi⟩ := r.get hv
  obtain ⟨s', e, h1, h2, h3⟩ := hf o.s hh hd
  obtain ⟨h', e', i', d'⟩ := inPlace_eq hi f e h3 h2
  exact ⟨o.p, h', _, hp, e', r.set ho i' rfl ⟨h1, h2.trans hd⟩, d'⟩

theorem step_ok {cmp : Cmp Nat} (hc : TotalPreorder cmp) {w : World} {vs : List Val} {os : List Obj} (r : R w vs os) (op : Op)
    (hs : ∃ vs' d, Step cmp vs op vs' d) :
    ∃ w' vs' d os', step cmp w op = some w' ∧ Step cmp vs op vs' d ∧ R w' vs' os' ∧ w'.heap.destroyed = w.heap.destroyed ++ d := by
  obtain ⟨vs', d, hs⟩ := hs
  cases op with
  | new c o =>
    obtain ⟨h', q, e, i', d'⟩ := new_eq r.inv c o
    exact ⟨⟨h', w.held ++ [w.heap.next]⟩, _, [], _, by simp [step, e], ⟨rfl, rfl⟩, r.push (v' := ⟨o, []⟩) i' ⟨has_new c o, rfl⟩, by simp [d']⟩
  | append i x =>
    obtain ⟨v, hv, rfl, rfl⟩ := hs
    obtain ⟨o, ho, ⟨hh, hd⟩, hp, hi⟩ := r.get hv
    obtain ⟨s', e, h1, h2⟩ := append_spec hh x
    obtain ⟨h', q, e', i', d'⟩ := append_eq hi x e
    exact ⟨⟨h', w.held⟩, _, _, _, by simp [step, hp, e'], ⟨v, hv, rfl, rfl⟩, r.set ho i' rfl ⟨h1, h2.trans hd⟩, by simp [d']⟩
  | appendOnce i x =>
    obtain ⟨v, hv, hs⟩ := hs
    obtain ⟨o, ho, ⟨hh, hd⟩, hp, hi⟩ := r.get hv
    have key := appendOnce_eq cmp hi x hh
    split at key <;> rename_i hf <;> rw [hf] at hs
    · obtain ⟨h', q, s', e', i', d', h1, h2⟩ := key
      obtain ⟨rfl, rfl⟩ := hs
      exact ⟨⟨h', w.held⟩, vs.set i ⟨v.owns, v.items ++ [x]⟩, [], _, by simp [step, hp, e'], ⟨v, hv, by rw [hf]; exact ⟨rfl, rfl⟩⟩, r.set ho i' rfl ⟨h1, h2.trans hd⟩, by simp [d']⟩
    · obtain ⟨h', q, s', e', i', d', h1, h2⟩ := key
      obtain ⟨rfl, rfl⟩ := hs
      exact ⟨⟨h', w.held⟩, vs.set i ⟨v.owns, v.items ++ [x]⟩, [], _, by simp [step, hp, e'], ⟨v, hv, by rw [hf]; exact ⟨rfl, rfl⟩⟩, r.set ho i' rfl ⟨h1, h2.trans hd⟩, by simp [d']⟩
    · obtain ⟨h', e', i', d'⟩ := key
      obtain ⟨rfl, rfl⟩ := hs
      exact ⟨⟨h', w.held⟩, _, _, _, by simp [step, hp, e'], ⟨v, hv, by rw [hf]; exact ⟨rfl, rfl⟩⟩, r.same (i'.perm (focus ho).1.symm), by simp [d', kill_eq hd]⟩
  | appendSeq i j =>
    obtain ⟨hij, v, u, hv, hu, rfl, rfl⟩ := hs
    obtain ⟨o, ho, ⟨hh, hd⟩, hp, hi⟩ := r.get hv
    obtain ⟨t, ht, ⟨hht, hdt⟩, hpt, hit⟩ := r.get hu
    have hmem : t ∈ os.eraseIdx i := by
      rw [List.mem_eraseIdx_iff_getElem?]
      exact ⟨j, Ne.symm hij, ht⟩
    obtain ⟨a, b, hab⟩ := List.append_of_mem hmem
    have hperm : (os.eraseIdx i).Perm (t :: (a ++ b)) := by rw [hab]; exact List.perm_middle
    have hi2 : Inv w.heap (o :: t :: (a ++ b)) := hi.perm (hperm.cons _)
    obtain ⟨h', q, s', hcase⟩ := appendSeqLoop_eq hht (u.items.length + 1) 0 w.heap o v.items hi2 hh (by omega)
    rcases hcase with ⟨e', i', d', h1, h2⟩ | hcase
    · refine ⟨⟨h', w.held⟩, _, _, _, ?_, ⟨hij, v, u, hv, hu, rfl, rfl⟩, r.set ho (i'.perm (hperm.symm.cons _)) rfl ⟨by simpa using h1, h2.trans hd⟩, by simp [d']⟩
      have hl := load_eq hit
      simp [step, hp, hpt, hl, hht.2.1, e']
    · omega
  | set i k x =>
    obtain ⟨v, hv, y, hy, rfl, rfl⟩ := hs
    obtain ⟨p, h', os', hp, e, r', d'⟩ := r.inPlace hv (f := fun s => Seqn.set s k x) (l := v.items.set k x) (d := v.kill [y]) (by
      intro s h1 h2
      obtain ⟨hk, rfl⟩ := List.getElem?_eq_some_iff.mp hy
      obtain ⟨s', e, a, b⟩ := set_spec h1 k hk x
      exact ⟨s', by rw [e, h2]; rfl, a, b, set_cap e⟩)
    exact ⟨⟨h', w.held⟩, _, _, _, by simp [step, hp, e], ⟨v, hv, y, hy, rfl, rfl⟩, r', d'⟩
  | removeRange i a b =>
    obtain ⟨v, hv, hab, hb, rfl, rfl⟩ := hs
    obtain ⟨p, h', os', hp, e, r', d'⟩ := r.inPlace hv (f := fun s => Seqn.removeRange s a b) (l := v.items.take a ++ v.items.drop (b + 1))
      (d := v.kill ((v.items.drop a).take (b + 1 - a))) (by
      intro s h1 h2
      obtain ⟨s', e, x, y⟩ := removeRange_spec h1 a b hb hab
      exact ⟨s', by rw [e, h2]; rfl, x, y, removeRange_cap e⟩)
    exact ⟨⟨h', w.held⟩, _, _, _, by simp [step, hp, e], ⟨v, hv, hab, hb, rfl, rfl⟩, r', d'⟩
  | softRemoveRange i a b =>
    obtain ⟨v, hv, hab, hb, rfl, rfl⟩ := hs
    obtain ⟨p, h', os', hp, e, r', d'⟩ := r.inPlace hv (f := fun s => (Seqn.softRemoveRange s a b).map (·, [])) (l := v.items.take a ++ v.items.drop (b + 1)) (d := []) (by
      intro s h1 h2
      obtain ⟨s', e, x, y⟩ := softRemoveRange_spec h1 a b hb hab
      exact ⟨s', by rw [e]; rfl, x, y, softRemoveRange_cap e⟩)
    exact ⟨⟨h', w.held⟩, _, _, _, by simp [step, hp, e], ⟨v, hv, hab, hb, rfl, rfl⟩, r', d'⟩
  | clear i =>
    obtain ⟨v, hv, rfl, rfl⟩ := hs
    obtain ⟨p, h', os', hp, e, r', d'⟩ := r.inPlace hv (f := Seqn.clear) (l := []) (d := v.kill v.items) (by
      intro s h1 h2
      obtain ⟨s', e, x, y⟩ := clear_spec h1
      exact ⟨s', by rw [e, h2]; rfl, x, y, clear_cap e⟩)
    exact ⟨⟨h', w.held⟩, _, _, _, by simp [step, hp, e], ⟨v, hv, rfl, rfl⟩, r', d'⟩
  | sort i =>
    obtain ⟨v, _, hv, _, _, rfl, rfl⟩ := hs
    obtain ⟨o, ho, ⟨hh, hd⟩, hp, hi⟩ := r.get hv
    obtain ⟨s', l, e, h1, h2, h3, h4⟩ := sort_spec hc hh
    obtain ⟨h', e', i', d'⟩ := inPlace_eq hi (fun s => (Seqn.sort cmp s).map (·, [])) (s' := s') (d := []) (by simp [e]) (sort_cap e) h4
    exact ⟨⟨h', w.held⟩, _, _, _, by simp [step, hp, e'], ⟨v, l, hv, h2, h3, rfl, rfl⟩, r.set ho i' rfl ⟨h1, h4.trans hd⟩, d'⟩
  | reverse i =>
    obtain ⟨v, hv, rfl, rfl⟩ := hs
    obtain ⟨p, h', os', hp, e, r', d'⟩ := r.inPlace hv (f := fun s => (Seqn.reverse s).map (·, [])) (l := v.items.reverse) (d := []) (by
      intro s h1 h2
      obtain ⟨s', e, x, y⟩ := reverse_spec h1
      exact ⟨s', by rw [e]; rfl, x, y, reverse_cap e⟩)
    exact ⟨⟨h', w.held⟩, _, _, _, by simp [step, hp, e], ⟨v, hv, rfl, rfl⟩, r', d'⟩
  | removeNulls i =>
    obtain ⟨v, hv, rfl, rfl⟩ := hs
    obtain ⟨p, h', os', hp, e, r', d'⟩ := r.inPlace hv (f := fun s => (Seqn.removeNulls (· == 0) s).map (·, [])) (l := v.items.filter (· ≠ 0)) (d := []) (by
      intro s h1 h2
      obtain ⟨s', e, x, y⟩ := removeNulls_spec (· == 0) h1
      refine ⟨s', by rw [e]; rfl, ?_, y, removeNulls_cap e⟩
      have : (v.items.filter (· ≠ 0)) = v.items.filter fun x => !(x == 0) := by
        congr 1; funext x; by_cases hx : x = 0 <;> simp [hx]
      rw [this]; exact x)
    exact ⟨⟨h', w.held⟩, _, _, _, by simp [step, hp, e], ⟨v, hv, rfl, rfl⟩, r', d'⟩
  | split i k =>
    obtain ⟨v, hv, hk, rfl, rfl⟩ := hs
    obtain ⟨o, ho, ⟨hh, hd⟩, hp, hi⟩ := r.get hv
    have hlen := hh.2.1
    have hi1 : i < vs.length := (List.getElem?_eq_some_iff.mp hv).1
    by_cases hkk : k ≥ o.s.length
    · obtain ⟨h', q, e, i', d'⟩ := new_eq r.inv 1 o.s.hasDestroy
      have hset : vs.set i ⟨v.owns, v.items.take k⟩ = vs := by
        rw [List.take_of_length_le (by omega)]
        exact set_same hv
      refine ⟨⟨h', w.held ++ [w.heap.next]⟩, _, [], os ++ [⟨w.heap.next, q, Seqn.new 1 o.s.hasDestroy⟩], ?_, ⟨v, hv, hk, rfl, rfl⟩, ?_, by simp [d']⟩
      · simp [step, hp, SeqHeap.split, load_eq hi, show k ≤ o.s.length by omega, hkk, e]
      · rw [hset, List.drop_eq_nil_of_le (by omega)]
        exact r.push (v' := ⟨v.owns, []⟩) i' ⟨has_new _ _, hd⟩
    · rcases Seqn.getRange_spec hh k (o.s.length - 1) with ⟨_, _, t, e, ht, hdt⟩ | ⟨hn, _⟩
      · obtain ⟨h1, p', q', e1, i1, d1⟩ := getRange_eq hi _ _ e
        obtain ⟨s2, e2, h2, hd2⟩ := softRemoveRange_spec hh k (o.s.length - 1) (by omega) (by omega)
        obtain ⟨h3, e3, i3, d3⟩ := inPlace_eq (i1.perm (List.Perm.swap _ _ _)) (fun s => (Seqn.softRemoveRange s k (s.length - 1)).map (·, []))
          (s' := s2) (d := []) (by simp [e2]) (softRemoveRange_cap e2) hd2
        refine ⟨⟨h3, w.held ++ [p']⟩, _, [], (os.set i ⟨o.p, o.q, s2⟩) ++ [⟨p', q', t⟩], ?_, ⟨v, hv, hk, rfl, rfl⟩, ?_, by simp [d3, d1]⟩
        · simp [step, hp, SeqHeap.split, load_eq hi, show k ≤ o.s.length by omega, show ¬ o.s.length ≤ k by omega, e1, e3]
        · have hrel1 : Rel ⟨o.p, o.q, s2⟩ ⟨v.owns, v.items.take k⟩ := by
            refine ⟨?_, hd2.trans hd⟩
            rw [List.drop_eq_nil_of_le (by omega)] at h2
            simpa using h2
          have hrel2 : Rel ⟨p', q', t⟩ ⟨v.owns, v.items.drop k⟩ := by
            refine ⟨?_, hdt.trans hd⟩
            rw [List.take_of_length_le (by simp; omega)] at ht
            exact ht
          have hperm : ((⟨o.p, o.q, s2⟩ : Obj) :: ⟨p', q', t⟩ :: os.eraseIdx i).Perm ((⟨p', q', t⟩ : Obj) :: os.set i ⟨o.p, o.q, s2⟩) :=
            (List.Perm.swap _ _ _).trans (((focus ho).2 _).symm.cons _)
          have hi' := i3.perm hperm
          refine ⟨hi'.perm (List.perm_append_comm (l₁ := [_])), ?_, by simp [r.len], ?_⟩
          · simp only [List.map_append, List.map_set, List.map_cons, List.map_nil]
            rw [← r.held]
            congr 1
            have : w.held[i]? = some o.p := hp
            exact (set_same this).symm
          · intro j o1 v1 g1 g2
            rw [List.getElem?_append] at g1 g2
            simp only [List.length_set] at g1 g2
            rw [r.len] at g1
            split at g2 <;> rename_i hj
            · rw [if_pos hj] at g1
              by_cases hji : i = j
              · subst hji
                rw [List.getElem?_set_self (by rw [r.len]; exact hj)] at g1
                rw [List.getElem?_set_self hj] at g2
                simp only [Option.some.injEq] at g1 g2
                exact g1 ▸ g2 ▸ hrel1
              · rw [List.getElem?_set_ne hji] at g1 g2
                exact r.rel j o1 v1 g1 g2
            · rw [if_neg hj] at g1
              have : j - vs.length = 0 := by
                have := (List.getElem?_eq_some_iff.mp g2).1
                simp at this; omega
              rw [this] at g1 g2
              simp only [List.getElem?_cons_zero, Option.some.injEq] at g1 g2
              exact g1 ▸ g2 ▸ hrel2
      · exact absurd ⟨by omega, by omega⟩ hn
  | getRange i a b =>
    obtain ⟨v, hv, rfl, rfl⟩ := hs
    obtain ⟨o, ho, ⟨hh, hd⟩, hp, hi⟩ := r.get hv
    rcases Seqn.getRange_spec hh a b with ⟨c1, c2, t, e, ht, hdt⟩ | ⟨hn, e⟩
    · obtain ⟨h1, p', q', e1, i1, d1⟩ := getRange_eq hi _ _ e
      refine ⟨⟨h1, w.held ++ [p']⟩, _, [], os ++ [⟨p', q', t⟩], by simp [step, hp, e1], ⟨v, hv, rfl, rfl⟩, ?_, by simp [d1]⟩
      rw [if_pos ⟨c2, c1⟩]
      exact r.push (i1.perm ((focus ho).1.symm.cons _)) ⟨ht, hdt.trans hd⟩
    · have e1 := getRange_eq hi _ _ e
      refine ⟨⟨w.heap, w.held⟩, _, [], os, by simp [step, hp, e1], ⟨v, hv, rfl, rfl⟩, ?_, by simp⟩
      rw [if_neg (fun hc => hn ⟨hc.2, hc.1⟩)]
      exact r.same r.inv
  | softSort i =>
    obtain ⟨v, _, hv, _, _, rfl, rfl⟩ := hs
    obtain ⟨o, ho, ⟨hh, hd⟩, hp, hi⟩ := r.get hv
    have hlen := hh.2.1
    by_cases hz : o.s.length = 0
    · have hnil : v.items = [] := List.eq_nil_of_length_eq_zero (by omega)
      obtain ⟨h', q, e, i', d'⟩ := new_eq r.inv 0 false
      refine ⟨⟨h', w.held ++ [w.heap.next]⟩, _, [], _, by simp [step, hp, SeqHeap.softSort, load_eq hi, hz, e],
        ⟨v, [], hv, by rw [hnil], List.Pairwise.nil, rfl, rfl⟩, r.push (v' := ⟨v.owns && !v.items.isEmpty, []⟩) i' ⟨has_new 0 false, by simp [hnil, Seqn.new]⟩, by simp [d']⟩
    · rcases Seqn.getRange_spec hh 0 (o.s.length - 1) with ⟨_, _, t, e, ht, hdt⟩ | ⟨hn, _⟩
      · obtain ⟨h1, p', q', e1, i1, d1⟩ := getRange_eq hi _ _ e
        obtain ⟨s', l, e2, g1, g2, g3, g4⟩ := sort_spec hc ht
        obtain ⟨h3, e3, i3, d3⟩ := inPlace_eq i1 (fun s => (Seqn.sort cmp s).map (·, [])) (s' := s') (d := []) (by simp [e2]) (sort_cap e2) g4
        rw [List.drop_zero, List.take_of_length_le (by omega)] at g2
        refine ⟨⟨h3, w.held ++ [p']⟩, _, [], _, ?_, ⟨v, l, hv, g2, g3, rfl, rfl⟩,
          r.push (v' := ⟨v.owns && !v.items.isEmpty, l⟩) (i3.perm ((focus ho).1.symm.cons _)) ⟨g1, ?_⟩, by simp [d3, d1]⟩
        · simp [step, hp, SeqHeap.softSort, load_eq hi, hz, e1, e3]
        · have hne : v.items ≠ [] := by intro hn; rw [hn] at hlen; exact hz hlen
          show s'.hasDestroy = _
          rw [g4, hdt, hd]; simp [hne]
      · exact absurd ⟨by omega, by omega⟩ hn
  | destroy i =>
    obtain ⟨v, hv, rfl, rfl⟩ := hs
    obtain ⟨o, ho, ⟨hh, hd⟩, hp, hi⟩ := r.get hv
    obtain ⟨h', e, i', d'⟩ := destroy_eq hi hh
    exact ⟨⟨h', w.held.eraseIdx i⟩, _, _, _, by simp [step, hp, e], ⟨v, hv, rfl, rfl⟩, r.erase (List.getElem?_eq_some_iff.mp hv).1 i', by rw [d', kill_eq hd]⟩
  | softDestroy i =>
    obtain ⟨v, hv, rfl, rfl⟩ := hs
    obtain ⟨o, ho, ⟨hh, hd⟩, hp, hi⟩ := r.get hv
    obtain ⟨h', e, i', d'⟩ := softDestroy_eq hi
    exact ⟨⟨h', w.held.eraseIdx i⟩, _, [], _, by simp [step, hp, e], ⟨v, hv, rfl, rfl⟩, r.erase (List.getElem?_eq_some_iff.mp hv).1 i', by simp [d']⟩

theorem run_ok {cmp : Cmp Nat} (hc : TotalPreorder cmp) : ∀ (ops : List Op) {w : World} {vs : List Val} {os : List Obj}, R w vs os → Allowed cmp vs ops →
    ∃ w' vs' d os', run cmp w ops = some w' ∧ Steps cmp vs ops vs' d ∧ R w' vs' os' ∧ w'.heap.destroyed = w.heap.destroyed ++ d := by
  intro ops
  induction ops with
  | nil => intro w vs os r _; exact ⟨w, vs, [], os, rfl, .nil _, r, by simp⟩
  | cons o ops ih =>
    intro w vs os r ha
    obtain ⟨w1, vs1, d1, os1, e1, s1, r1, q1⟩ := step_ok hc r o ha.1
    obtain ⟨w2, vs2, d2, os2, e2, s2, r2, q2⟩ := ih r1 (ha.2 _ _ s1)
    exact ⟨w2, vs2, d1 ++ d2, os2, by simp [run, e1, e2], .cons s1 s2, r2, by rw [q2, q1, List.append_assoc]⟩

theorem blocks_length (os : List Obj) : (blocks os).length = 2 * os.length := by
  induction os with
  | nil => rfl
  | cons o os ih => simp only [blocks, List.flatMap_cons, List.length_append, Obj.blocks] at ih ⊢; simp [ih]; omega

/-! ## Items -/

def allItems (vs : List Val) : List Nat := vs.flatMap Val.items

theorem count_split {vs : List Val} {i : Nat} {v : Val} (h : vs[i]? = some v) (x : Nat) :
    (allItems vs).count x = v.items.count x + (allItems (vs.eraseIdx i)).count x ∧
    ∀ v', (allItems (vs.set i v')).count x = v'.items.count x + (allItems (vs.eraseIdx i)).count x := by
  obtain ⟨a, b⟩ := focus h
  constructor
  · rw [allItems, (a.flatMap_right Val.items).count_eq x]; simp [allItems]
  · intro v'; rw [allItems, ((b v').flatMap_right Val.items).count_eq x]; simp [allItems]

theorem count_kill (v : Val) (l : List Nat) (x : Nat) : (v.kill l).count x ≤ l.count x ∧ (v.owns = true → (v.kill l).count x = l.count x) := by
  unfold Val.kill
  split <;> simp_all

theorem count_range (l : List Nat) (a b x : Nat) (h : a ≤ b) :
    ((l.drop a).take (b + 1 - a)).count x + (l.take a ++ l.drop (b + 1)).count x = l.count x := by
  have e : l = l.take a ++ ((l.drop a).take (b + 1 - a) ++ l.drop (b + 1)) := by
    have : l.drop (b + 1) = (l.drop a).drop (b + 1 - a) := by rw [List.drop_drop]; congr 1; omega
    rw [this, List.take_append_drop, List.take_append_drop]
  conv => rhs; rw [e]
  simp only [List.count_append]; omega

theorem count_set_item {l : List Nat} {k y : Nat} (z x : Nat) (h : l[k]? = some y) :
    (l.set k z).count x + [y].count x = l.count x + [z].count x := by
  obtain ⟨a, b⟩ := focus h
  rw [a.count_eq x, (b z).count_eq x]
  simp only [List.count_cons, List.count_nil]; omega

theorem step_count {cmp : Cmp Nat} {vs vs' : List Val} {op : Op} {d : List Nat} (h : Step cmp vs op vs' d) (hs : SeqHeapSpec.Op.shares op = false) (x : Nat) :
    d.count x + (allItems vs').count x ≤ (given [op]).count x + (allItems vs).count x ∧
    ((∀ v ∈ vs, v.owns = true) → SeqHeapSpec.Op.drops op = false →
      d.count x + (allItems vs').count x = (given [op]).count x + (allItems vs).count x ∧ ∀ v ∈ vs', v.owns = true) := by
  have own : ∀ {i : Nat} {v : Val}, vs[i]? = some v → (∀ v ∈ vs, v.owns = true) → v.owns = true :=
    fun h1 h2 => h2 _ (List.mem_of_getElem? h1)
  have ownSet : ∀ {i : Nat} {v : Val} (l : List Nat), vs[i]? = some v → (∀ v ∈ vs, v.owns = true) → ∀ u ∈ vs.set i ⟨v.owns, l⟩, u.owns = true := by
    intro i v l h1 h2 u hu
    rcases List.mem_or_eq_of_mem_set hu with hu | rfl
    · exact h2 u hu
    · have := own h1 h2; exact this
  cases op with
  | new c o =>
    obtain ⟨rfl, rfl⟩ := h
    refine ⟨by simp [allItems, given], fun ho hd => ⟨by simp [allItems, given], ?_⟩⟩
    intro v hv
    rcases List.mem_append.mp hv with hv | hv
    · exact ho v hv
    · simp only [List.mem_singleton] at hv; subst hv; simpa [SeqHeapSpec.Op.drops] using hd
  | append i y =>
    obtain ⟨v, hv, rfl, rfl⟩ := h
    obtain ⟨c1, c2⟩ := count_split hv x
    have e : ([] : List Nat).count x + (allItems (vs.set i ⟨v.owns, v.items ++ [y]⟩)).count x = (given [Op.append i y]).count x + (allItems vs).count x := by
      rw [c2, c1]; simp only [given, List.count_append, List.count_nil]; omega
    exact ⟨by omega, fun ho hd => ⟨e, ownSet _ hv ho⟩⟩
  | appendOnce i y =>
    obtain ⟨v, hv, h⟩ := h
    obtain ⟨c1, c2⟩ := count_split hv x
    have e : ([] : List Nat).count x + (allItems (vs.set i ⟨v.owns, v.items ++ [y]⟩)).count x = (given [Op.append i y]).count x + (allItems vs).count x := by
      rw [c2, c1]; simp only [given, List.count_append, List.count_nil]; omega
    split at h
    · obtain ⟨rfl, rfl⟩ := h
      exact ⟨by simp only [given] at e ⊢; omega, fun ho hd => ⟨e, ownSet _ hv ho⟩⟩
    · obtain ⟨rfl, rfl⟩ := h
      exact ⟨by simp only [given] at e ⊢; omega, fun ho hd => ⟨e, ownSet _ hv ho⟩⟩
    · obtain ⟨rfl, rfl⟩ := h
      obtain ⟨k1, k2⟩ := count_kill v [y] x
      exact ⟨by simp only [given]; omega, fun ho hd => ⟨by simp only [given]; have := k2 (own hv ho); omega, ho⟩⟩
  | appendSeq i j => simp [SeqHeapSpec.Op.shares] at hs
  | getRange i a b => simp [SeqHeapSpec.Op.shares] at hs
  | softSort i => simp [SeqHeapSpec.Op.shares] at hs
  | set i k z =>
    obtain ⟨v, hv, y, hy, rfl, rfl⟩ := h
    obtain ⟨c1, c2⟩ := count_split hv x
    obtain ⟨k1, k2⟩ := count_kill v [y] x
    have c3 := count_set_item z x hy
    rw [c1, c2]
    exact ⟨by simp only [given]; omega, fun ho hd => ⟨by simp only [given]; have := k2 (own hv ho); omega, ownSet _ hv ho⟩⟩
  | removeRange i a b =>
    obtain ⟨v, hv, hab, hb, rfl, rfl⟩ := h
    obtain ⟨c1, c2⟩ := count_split hv x
    obtain ⟨k1, k2⟩ := count_kill v ((v.items.drop a).take (b + 1 - a)) x
    have c3 := count_range v.items a b x hab
    rw [c1, c2]
    exact ⟨by simp only [given, List.count_nil]; omega, fun ho hd => ⟨by simp only [given, List.count_nil]; have := k2 (own hv ho); omega, ownSet _ hv ho⟩⟩
  | softRemoveRange i a b =>
    obtain ⟨v, hv, hab, hb, rfl, rfl⟩ := h
    obtain ⟨c1, c2⟩ := count_split hv x
    have c3 := count_range v.items a b x hab
    rw [c1, c2]
    exact ⟨by simp only [given, List.count_nil]; omega, fun ho hd => by simp [SeqHeapSpec.Op.drops] at hd⟩
  | clear i =>
    obtain ⟨v, hv, rfl, rfl⟩ := h
    obtain ⟨c1, c2⟩ := count_split hv x
    obtain ⟨k1, k2⟩ := count_kill v v.items x
    rw [c1, c2]
    exact ⟨by simp only [given, List.count_nil]; omega, fun ho hd => ⟨by simp only [given, List.count_nil]; have := k2 (own hv ho); omega, ownSet _ hv ho⟩⟩
  | sort i =>
    obtain ⟨v, l, hv, hp, _, rfl, rfl⟩ := h
    obtain ⟨c1, c2⟩ := count_split hv x
    have c3 := hp.count_eq x
    rw [c1, c2]
    exact ⟨by simp only [given, List.count_nil]; omega, fun ho hd => ⟨by simp only [given, List.count_nil]; omega, ownSet _ hv ho⟩⟩
  | reverse i =>
    obtain ⟨v, hv, rfl, rfl⟩ := h
    obtain ⟨c1, c2⟩ := count_split hv x
    rw [c1, c2]
    exact ⟨by simp only [given, List.count_nil, List.count_reverse]; omega, fun ho hd => ⟨by simp only [given, List.count_nil, List.count_reverse], ownSet _ hv ho⟩⟩
  | removeNulls i =>
    obtain ⟨v, hv, rfl, rfl⟩ := h
    obtain ⟨c1, c2⟩ := count_split hv x
    have c3 : (v.items.filter (· ≠ 0)).count x ≤ v.items.count x := List.filter_sublist.count_le x
    rw [c1, c2]
    exact ⟨by simp only [given, List.count_nil]; omega, fun ho hd => by simp [SeqHeapSpec.Op.drops] at hd⟩
  | split i k =>
    obtain ⟨v, hv, hk, rfl, rfl⟩ := h
    obtain ⟨c1, c2⟩ := count_split hv x
    have c3 : v.items.count x = (v.items.take k).count x + (v.items.drop k).count x := by rw [← List.count_append, List.take_append_drop]
    have c4 : (allItems (vs.set i ⟨v.owns, v.items.take k⟩ ++ [⟨v.owns, v.items.drop k⟩])).count x
        = (allItems (vs.set i ⟨v.owns, v.items.take k⟩)).count x + (v.items.drop k).count x := by simp [allItems]
    rw [c4, c1, c2]
    refine ⟨by simp only [given, List.count_nil]; omega, fun ho hd => ⟨by simp only [given, List.count_nil]; omega, ?_⟩⟩
    intro u hu
    rcases List.mem_append.mp hu with hu | hu
    · exact ownSet _ hv ho u hu
    · simp only [List.mem_singleton] at hu; subst hu; have := own hv ho; exact this
  | destroy i =>
    obtain ⟨v, hv, rfl, rfl⟩ := h
    obtain ⟨c1, c2⟩ := count_split hv x
    obtain ⟨k1, k2⟩ := count_kill v v.items x
    rw [c1]
    exact ⟨by simp only [given, List.count_nil]; omega, fun ho hd => ⟨by simp only [given, List.count_nil]; have := k2 (own hv ho); omega,
      fun u hu => ho u (List.mem_of_mem_eraseIdx hu)⟩⟩
  | softDestroy i =>
    obtain ⟨v, hv, rfl, rfl⟩ := h
    obtain ⟨c1, c2⟩ := count_split hv x
    rw [c1]
    exact ⟨by simp only [given, List.count_nil]; omega, fun ho hd => by simp [SeqHeapSpec.Op.drops] at hd⟩

theorem given_cons (o : Op) (os : List Op) : given (o :: os) = given [o] ++ given os := by
  cases o <;> rfl

theorem steps_count {cmp : Cmp Nat} {vs vs' : List Val} {ops : List Op} {d : List Nat} (h : Steps cmp vs ops vs' d)
    (hs : ∀ o ∈ ops, SeqHeapSpec.Op.shares o = false) (x : Nat) :
    d.count x + (allItems vs').count x ≤ (given ops).count x + (allItems vs).count x ∧
    ((∀ v ∈ vs, v.owns = true) → (∀ o ∈ ops, SeqHeapSpec.Op.drops o = false) →
      d.count x + (allItems vs').count x = (given ops).count x + (allItems vs).count x) := by
  induction h with
  | nil vs => simp [given]
  | cons h1 h2 ih =>
    obtain ⟨a1, a2⟩ := step_count h1 (hs _ List.mem_cons_self) x
    obtain ⟨b1, b2⟩ := ih (fun o ho => hs o (List.mem_cons_of_mem _ ho))
    rw [given_cons]
    simp only [List.count_append]
    refine ⟨by omega, fun ho hd => ?_⟩
    obtain ⟨a3, a4⟩ := a2 ho (hd _ List.mem_cons_self)
    have := b2 a4 (fun o ho => hd o (List.mem_cons_of_mem _ ho))
    omega

end SeqHeap

/-- **C182**. Every program that holds any number of sequences and makes only allowed calls: the code never leaves the memory it owns and every call
returns; the sequences held are, one by one, those of plain lists, so no call changes any sequence but the one named; the destructor is called with exactly the items
of the specification, in that order; and the memory in use is exactly two blocks per sequence held. -/
theorem C182_sequences_are_independent {cmp : Nat → Nat → Int} (hc : TotalPreorder cmp) (ops : List Op) (ha : Allowed cmp [] ops) :
    ∃ w vs d, run cmp SeqHeap.init ops = some w ∧ Steps cmp [] ops vs d ∧ w.heap.destroyed = d ∧
      w.held.length = vs.length ∧
      (∀ (i : Nat) v, vs[i]? = some v → ∃ p s, w.held[i]? = some p ∧ load w.heap p = some s ∧ WellFormed s ∧ Contents s v.items ∧ s.hasDestroy = v.owns) ∧
      ∃ used : List Nat, used.Nodup ∧ used.length = 2 * w.held.length ∧ ∀ a, w.heap.mem a ≠ none ↔ a ∈ used := by
  obtain ⟨w, vs, d, os, e, s, r, q⟩ := run_ok hc ops (w := SeqHeap.init) (vs := []) (os := [])
    ⟨⟨by simp, by simp, by simp [blocks], by simp [SeqHeap.init], by simp [blocks]⟩, rfl, rfl, by simp⟩ ha
  refine ⟨w, vs, d, e, s, by simpa [SeqHeap.init] using q, by rw [r.held, List.length_map, r.len], ?_, blocks os, r.inv.nodup, ?_, ?_⟩
  · intro i v hv
    obtain ⟨o, ho, ⟨⟨h1, h2⟩, h3⟩, hp, hi⟩ := r.get hv
    exact ⟨o.p, o.s, hp, load_eq hi, h1, h2, h3⟩
  · rw [blocks_length, r.held, List.length_map]
  · intro a
    refine ⟨r.inv.only a, ?_⟩
    intro h
    simp only [blocks, List.mem_flatMap, Obj.blocks, List.mem_cons, List.not_mem_nil, or_false] at h
    obtain ⟨o, ho, rfl | rfl⟩ := h
    · rw [r.inv.isHdr o ho]; simp
    · rw [r.inv.isCells o ho]; simp

/-- **C182**. In a program that puts each item into a sequence once and does not call the functions that copy item pointers, no item is ever given to the
destructor twice, and an item given to the destructor is in no sequence any more. -/
theorem C182_no_item_is_destroyed_twice {cmp : Nat → Nat → Int} (hc : TotalPreorder cmp) (ops : List Op) (ha : Allowed cmp [] ops)
    (hs : ∀ o ∈ ops, SeqHeapSpec.Op.shares o = false) (hg : (given ops).Nodup) :
    ∃ w vs, run cmp SeqHeap.init ops = some w ∧ Steps cmp [] ops vs w.heap.destroyed ∧ (w.heap.destroyed ++ vs.flatMap Val.items).Nodup ∧
      ∀ x ∈ w.heap.destroyed ++ vs.flatMap Val.items, x ∈ given ops := by
  obtain ⟨w, vs, d, e, s, q, _⟩ := C182_sequences_are_independent hc ops ha
  subst q
  have key : ∀ x, (w.heap.destroyed ++ vs.flatMap Val.items).count x ≤ (given ops).count x := by
    intro x
    have := (steps_count s hs x).1
    simpa [allItems] using this
  refine ⟨w, vs, e, s, ?_, ?_⟩
  · rw [List.nodup_iff_count]
    intro x
    exact Nat.le_trans (key x) (List.nodup_iff_count.mp hg x)
  · intro x hx
    have h1 := List.count_pos_iff.mpr hx
    exact List.count_pos_iff.mp (Nat.lt_of_lt_of_le h1 (key x))

/-- **C182**. If in addition every sequence has a destructor and items are only taken out by functions that destroy them, then nothing leaks: the items
given to the destructor and those still in sequences are exactly the items put in; with no sequence left, the destructor has had every item. -/
theorem C182_no_item_is_lost {cmp : Nat → Nat → Int} (hc : TotalPreorder cmp) (ops : List Op) (ha : Allowed cmp [] ops)
    (hs : ∀ o ∈ ops, SeqHeapSpec.Op.shares o = false) (hd : ∀ o ∈ ops, SeqHeapSpec.Op.drops o = false) :
    ∃ w vs, run cmp SeqHeap.init ops = some w ∧ Steps cmp [] ops vs w.heap.destroyed ∧ (w.heap.destroyed ++ vs.flatMap Val.items).Perm (given ops) ∧
      (w.held = [] → w.heap.destroyed.Perm (given ops) ∧ ∀ a, w.heap.mem a = none) := by
  obtain ⟨w, vs, d, e, s, q, hl, _, used, _, hu, hm⟩ := C182_sequences_are_independent hc ops ha
  subst q
  have key : (w.heap.destroyed ++ vs.flatMap Val.items).Perm (given ops) := by
    rw [List.perm_iff_count]
    intro x
    have := (steps_count s hs x).2 (by simp) hd
    simpa [allItems] using this
  refine ⟨w, vs, e, s, key, fun hh => ?_⟩
  rw [hh] at hl hu
  have h1 : vs = [] := List.eq_nil_of_length_eq_zero (by simpa using hl.symm)
  have h2 : used = [] := List.eq_nil_of_length_eq_zero (by simpa using hu)
  subst h1 h2
  refine ⟨by simpa using key, fun a => ?_⟩
  have := hm a
  simpa using this

/-- **C182**, finding: `SeqGetRange` (and so `SeqSoftSort`) gives the soft copy the destructor of the original: destroying both with `SeqDestroy`
destroys an item twice. -/
theorem C182_soft_copy_destroys_twice_negated :
    ∃ w, run (fun a b => (a : Int) - b) SeqHeap.init [.new 1 true, .append 0 7, .getRange 0 0 0, .destroy 0, .destroy 0] = some w ∧
      w.heap.destroyed = [7, 7] := by
  refine ⟨_, rfl, by decide +kernel⟩

/-- **C182**, finding: appending a sequence to itself never ends: whatever number of rounds, the loop is still running. -/
theorem C182_append_to_itself_never_ends_negated (cap x : Nat) :
    ∃ w p, run (fun a b => (a : Int) - b) SeqHeap.init [.new cap true, .append 0 x] = some w ∧ w.held = [p] ∧
      ∀ rounds, appendSeqLoop p p rounds w.heap 0 = some none := by
  have hinit : Inv SeqHeap.init.heap [] := ⟨by simp, by simp, by simp [blocks], by simp [SeqHeap.init], by simp [blocks]⟩
  obtain ⟨h1, q, e1, i1, d1⟩ := new_eq hinit cap true
  obtain ⟨s', e2, r2, _⟩ := Seqn.append_spec (Seqn.has_new (P := Nat) cap true) x
  obtain ⟨h2, q2, e3, i2, d2⟩ := append_eq i1 x e2
  refine ⟨⟨h2, [0]⟩, 0, ?_, rfl, ?_⟩
  · have e1' : SeqHeap.new SeqHeap.init.heap cap true = some (h1, 0) := e1
    have e3' : SeqHeap.append h1 0 x = some h2 := e3
    simp [run, step, e1', e3', show SeqHeap.init.held = [] from rfl]
  · intro rounds
    exact appendSelf rounds 0 h2 ⟨0, q2, s'⟩ [x] i2 r2 (by simp)

/-- **C182**, finding: the soft sorted copy of an empty sequence has no destructor, that of a non-empty one has. -/
theorem C182_soft_sort_destructor_negated :
    (∃ w s, run (fun a b => (a : Int) - b) SeqHeap.init [.new 1 true, .softSort 0] = some w ∧ load w.heap 2 = some s ∧ w.held = [0, 2] ∧ s.hasDestroy = false) ∧
    (∃ w s, run (fun a b => (a : Int) - b) SeqHeap.init [.new 1 true, .append 0 7, .softSort 0] = some w ∧ load w.heap 2 = some s ∧ w.held = [0, 2] ∧ s.hasDestroy = true) := by
  refine ⟨⟨_, _, rfl, rfl, by decide +kernel, by decide +kernel⟩, ⟨_, _, rfl, rfl, by decide +kernel, by decide +kernel⟩⟩

theorem SeqHeap.sub_total : TotalPreorder fun a b : Nat => (a : Int) - b := ⟨by intro a; simp, by intro a b; omega, by intro a b c; omega⟩

/-- The hypotheses are met: three sequences, growth, splitting, sorting, destruction. -/
example : ((run (fun a b => (a : Int) - b) SeqHeap.init
    [.new 1 true, .append 0 5, .append 0 3, .append 0 9, .new 0 true, .append 1 4, .split 0 1, .sort 2, .set 2 0 8, .removeRange 0 0 0, .destroy 1]).map
      fun w => decide (w.held = [0, 6] ∧ w.heap.destroyed = [3, 5, 4] ∧
        (w.held.map fun p => (load w.heap p).map fun s => (s.length, s.data)) = [some (0, [some 5, some 3, some 9, none]), some (2, [some 8, some 9])])) =
    some true := by decide +kernel

example : Allowed (fun a b => (a : Int) - b) [] [.new 1 true, .append 0 5, .split 0 1, .append 1 6, .destroy 0, .clear 0] := by
  refine ⟨⟨_, _, rfl, rfl⟩, ?_⟩
  rintro _ _ ⟨rfl, rfl⟩
  refine ⟨⟨_, _, _, rfl, rfl, rfl⟩, ?_⟩
  rintro _ _ ⟨v, hv, rfl, rfl⟩
  simp only [List.nil_append, List.getElem?_cons_zero, Option.some.injEq] at hv
  subst hv
  refine ⟨⟨_, _, _, rfl, by decide, rfl, rfl⟩, ?_⟩
  rintro _ _ ⟨v, hv, hk, rfl, rfl⟩
  simp at hv
  subst hv
  refine ⟨⟨_, _, _, rfl, rfl, rfl⟩, ?_⟩
  rintro _ _ ⟨v, hv, rfl, rfl⟩
  simp at hv
  subst hv
  refine ⟨⟨_, _, _, rfl, rfl, rfl⟩, ?_⟩
  rintro _ _ ⟨v, hv, rfl, rfl⟩
  exact ⟨⟨_, _, _, rfl, rfl, rfl⟩, fun _ _ _ => trivial⟩
