import Verif.Lemmas.BufHeap
/-! # C188: several buffers in one memory, and pointers to their bytes -/
open BufHeap BufHeapSpec

namespace BufHeap
open BufferSpec (B cstr)
open Buffer (Buf)

def Obj.held : Obj → Held
  | .gone => .gone
  | .buf p .. => .buf p
  | .ptr a => .ptr a
  | .str a _ => .str a

/-- The cells begin with the bytes `t`. -/
def Begins (cells : List (Option UInt8)) (t : List UInt8) : Prop := ∃ rest, cells = t.map some ++ rest

def Rel (os : List Obj) : Obj → Val → Prop
  | .gone, .gone => True
  | .ptr _, .gone => True
  | .ptr a, .ptr i => ∃ p b, os[i]? = some (.buf p a b)
  | .buf _ _ b, .buf s n => Buffer.Rep b s ∧ (n = true → Buffer.Term b)
  | .str _ c, .str t => Begins c t
  | _, _ => False

structure R (w : World) (vs : List Val) (os : List Obj) : Prop where
  inv : Inv w.heap os
  held : w.held = os.map Obj.held
  len : os.length = vs.length
  rel : ∀ (i : Nat) (o : Obj) (v : Val), os[i]? = some o → vs[i]? = some v → Rel os o v

theorem focus {α : Type} {os : List α} {i : Nat} {o : α} (h : os[i]? = some o) : os.Perm (o :: os.eraseIdx i) ∧ ∀ o', (os.set i o').Perm (o' :: os.eraseIdx i) := by
  obtain ⟨hi, rfl⟩ := List.getElem?_eq_some_iff.mp h
  constructor
  · conv => lhs; rw [← List.take_append_drop i os, List.drop_eq_getElem_cons hi]
    rw [List.eraseIdx_eq_take_drop_succ]
    exact List.perm_middle
  · intro o'
    rw [List.set_eq_take_append_cons_drop, if_pos hi, List.eraseIdx_eq_take_drop_succ]
    exact List.perm_middle

theorem set_same {α : Type} {l : List α} {i : Nat} {a : α} (h : l[i]? = some a) : l.set i a = l := by
  obtain ⟨hi, rfl⟩ := List.getElem?_eq_some_iff.mp h
  simp

theorem R.get {w : World} {vs : List Val} {os : List Obj} (r : R w vs os) {i : Nat} {v : Val} (hv : vs[i]? = some v) :
    ∃ o, os[i]? = some o ∧ Rel os o v ∧ w.held[i]? = some o.held ∧ Inv w.heap (o :: os.eraseIdx i) := by
  have hi : i < vs.length := (List.getElem?_eq_some_iff.mp hv).1
  have hi2 : i < os.length := by rw [r.len]; exact hi
  have ho : os[i]? = some os[i] := by simp [hi2]
  exact ⟨_, ho, r.rel i _ v ho hv, by rw [r.held, List.getElem?_map, ho]; rfl, r.inv.perm (focus ho).1⟩

theorem R.buf {w : World} {vs : List Val} {os : List Obj} (r : R w vs os) {i : Nat} {x : B × Bool} (hv : bufAt vs i = some x) :
    ∃ p a b, os[i]? = some (.buf p a b) ∧ vs[i]? = some (.buf x.1 x.2) ∧ Buffer.Rep b x.1 ∧ (x.2 = true → Buffer.Term b) ∧ w.bufOf i = some p ∧ Inv w.heap (.buf p a b :: os.eraseIdx i) := by
  have hv' : vs[i]? = some (.buf x.1 x.2) := by
    unfold bufAt at hv
    split at hv
    · simp only [Option.some.injEq] at hv; subst hv; assumption
    · cases hv
  obtain ⟨o, ho, hr, hh, hi⟩ := r.get hv'
  cases o with
  | buf p a b => exact ⟨p, a, b, ho, hv', hr.1, hr.2, by simp [World.bufOf, hh, Obj.held], hi⟩
  | gone => exact hr.elim
  | ptr a => exact hr.elim
  | str a c => exact hr.elim

/-- Reading through number `k`. -/
theorem R.bytes {w : World} {vs : List Val} {os : List Obj} (r : R w vs os) {k : Nat} {t : List UInt8} (hv : bytes vs k = some t) :
    ∃ a cells, w.arrOf k = some a ∧ w.heap.mem a = some (.arr cells) ∧ Begins cells t ∧
      ∀ i p a' b, os[i]? = some (.buf p a' b) → apart vs i k = true → a ∈ blocks (os.eraseIdx i) := by
  unfold BufHeapSpec.bytes at hv
  split at hv
  · rename_i t' hk
    cases hv
    obtain ⟨o, ho, hr, hh, hi⟩ := r.get hk
    cases o with
    | gone => exact hr.elim
    | ptr a => exact hr.elim
    | buf p a b => exact hr.elim
    | str a c =>
      refine ⟨a, c, by simp [World.arrOf, hh, Obj.held], hi.good _ List.mem_cons_self, hr, ?_⟩
      intro i p a' b hb _
      have hne : i ≠ k := by rintro rfl; rw [ho] at hb; cases hb
      have hm : Obj.str a c ∈ os.eraseIdx i := List.mem_eraseIdx_iff_getElem?.mpr ⟨k, hne.symm, ho⟩
      exact mem_blocks hm (by simp [Obj.blocks])
  · rename_i j hk
    split at hv
    · rename_i s n hj
      cases hv
      obtain ⟨o, ho, hr, hh, hi⟩ := r.get hk
      cases o with
      | gone => exact hr.elim
      | str a c => exact hr.elim
      | buf p a b => exact hr.elim
      | ptr a =>
        obtain ⟨p, b, hb⟩ := hr
        have hrel := r.rel j _ _ hb hj
        obtain ⟨hrep, hterm⟩ : Buffer.Rep b s ∧ (n = true → Buffer.Term b) := hrel
        have hg := r.inv.good _ (List.mem_of_getElem? hb)
        refine ⟨a, b.mem, by simp [World.arrOf, hh, Obj.held], hg.2, ?_, ?_⟩
        · obtain ⟨rest, hm, hne⟩ := hrep.holds.ex
          cases n with
          | false => exact ⟨rest, by simp [hm]⟩
          | true =>
            have ht := hterm rfl
            cases rest with
            | nil => exact absurd rfl hne
            | cons c rest =>
              have : c = some 0 := by
                rw [Buffer.Term, hrep.used, hm] at ht
                simpa [CMem.get] using ht
              subst this
              exact ⟨rest, by simp [hm]⟩
        · intro i p' a' b' hb' hap
          have hne : i ≠ j := by simpa [apart, hk] using hap
          have hm : Obj.buf p a b ∈ os.eraseIdx i := List.mem_eraseIdx_iff_getElem?.mpr ⟨j, hne.symm, hb⟩
          exact mem_blocks hm (by simp [Obj.blocks])
    · cases hv
  · cases hv

theorem change_get {vs : List Val} {i k : Nat} {v : Val} (hi : i < vs.length) : (change vs i v)[k]? =
    if i = k then some v else vs[k]?.map fun u => match u with | .ptr j => if j = i then .gone else u | _ => u := by
  by_cases h : i = k
  · subst h
    rw [if_pos rfl, change, List.getElem?_set_self (by simpa using hi)]
  · rw [if_neg h, change, List.getElem?_set_ne h, List.getElem?_map]
    rfl

/-- The buffer `i` becomes another object. -/
theorem R.change {w : World} {vs : List Val} {os : List Obj} (r : R w vs os) {i p a : Nat} {b : Buf} (ho : os[i]? = some (.buf p a b)) {h' : Heap} {o' : Obj} {v' : Val}
    (hi : Inv h' (o' :: os.eraseIdx i)) (hr : ∀ os', Rel os' o' v') : R ⟨h', w.held.set i o'.held⟩ (change vs i v') (os.set i o') := by
  have hlt : i < os.length := (List.getElem?_eq_some_iff.mp ho).1
  have hlt2 : i < vs.length := by rw [← r.len]; exact hlt
  refine ⟨hi.perm ((focus ho).2 o').symm, by simp [r.held, List.map_set], by simp [r.len, BufHeapSpec.change], ?_⟩
  intro k o1 v1 h1 h2
  rw [change_get hlt2] at h2
  by_cases e : i = k
  · subst e
    rw [if_pos rfl] at h2
    rw [List.getElem?_set_self hlt] at h1
    simp only [Option.some.injEq] at h1 h2
    subst h1 h2
    exact hr _
  · rw [if_neg e] at h2
    rw [List.getElem?_set_ne e] at h1
    cases hv : vs[k]? with
    | none => rw [hv] at h2; simp at h2
    | some u =>
      rw [hv] at h2
      simp only [Option.map_some, Option.some.injEq] at h2
      have g := r.rel k o1 u h1 hv
      cases u with
      | buf s n => subst h2; cases o1 <;> first | exact g.elim | exact g
      | str t => subst h2; cases o1 <;> first | exact g.elim | exact g
      | gone => subst h2; cases o1 <;> first | exact g.elim | exact g
      | ptr j =>
        cases o1 with
        | gone => exact g.elim
        | buf _ _ _ => exact g.elim
        | str _ _ => exact g.elim
        | ptr x =>
          obtain ⟨p', b', g⟩ := g
          by_cases hj : j = i
          · simp only [hj, if_true] at h2
            subst h2
            trivial
          · simp only [hj, if_false] at h2
            subst h2
            exact ⟨p', b', by rw [List.getElem?_set_ne (fun e => hj e.symm)]; exact g⟩

/-- The buffer `i` has other bytes, and perhaps another array. -/
theorem R.keep {w : World} {vs : List Val} {os : List Obj} (r : R w vs os) {i p a a' : Nat} {b b' : Buf} (ho : os[i]? = some (.buf p a b)) {h' : Heap} {s : B} {n : Bool}
    (hi : Inv h' (Obj.buf p a' b' :: os.eraseIdx i)) (h1 : Buffer.Rep b' s) (h2 : n = true → Buffer.Term b') :
    R ⟨h', w.held⟩ (BufHeapSpec.change vs i (.buf s n)) (os.set i (Obj.buf p a' b')) := by
  have e : w.held = w.held.set i (Obj.buf p a' b').held := by
    refine (set_same ?_).symm
    rw [r.held, List.getElem?_map, ho]; rfl
  rw [e]
  exact r.change ho hi fun _ => ⟨h1, h2⟩

theorem Rel.append {os : List Obj} {o' : Obj} {o : Obj} {v : Val} (g : Rel os o v) : Rel (os ++ [o']) o v := by
  cases o <;> cases v <;> first | exact g.elim | exact g | skip
  obtain ⟨p, b, g⟩ := g
  exact ⟨p, b, by rw [List.getElem?_append_left (List.getElem?_eq_some_iff.mp g).1]; exact g⟩

theorem R.push {w : World} {vs : List Val} {os : List Obj} (r : R w vs os) {h' : Heap} {o' : Obj} {v' : Val}
    (hi : Inv h' (o' :: os)) (hr : Rel os o' v') : R ⟨h', w.held ++ [o'.held]⟩ (vs ++ [v']) (os ++ [o']) := by
  refine ⟨hi.perm (List.perm_append_comm (l₁ := [o'])), by simp [r.held], by simp [r.len], ?_⟩
  intro k o1 v1 h1 h2
  rw [List.getElem?_append] at h1 h2
  rw [r.len] at h1
  split at h2
  · rename_i hk'; rw [if_pos hk'] at h1; exact (r.rel k o1 v1 h1 h2).append
  · rename_i hk'; rw [if_neg hk'] at h1
    have : k - vs.length = 0 := by
      have := (List.getElem?_eq_some_iff.mp h2).1
      simp at this; omega
    rw [this] at h1 h2
    simp only [List.getElem?_cons_zero, Option.some.injEq] at h1 h2
    subst h1 h2
    exact hr.append

theorem Inv.noBlocks {h : Heap} {r : List Obj} (i : Inv h r) {o : Obj} (ho : o.blocks = []) (hg : Good h.mem o) : Inv h (o :: r) where
  good x hx := by
    rcases List.mem_cons.mp hx with rfl | hx
    · exact hg
    · exact i.good x hx
  nodup := by rw [blocks_cons, ho]; exact i.nodup
  only x hx := by rw [blocks_cons, ho]; exact i.only x hx
  lt x hx := by rw [blocks_cons, ho] at hx; exact i.lt x hx

theorem begins_drop {cells : List (Option UInt8)} {t : List UInt8} (h : Begins cells t) (off : Nat) (ho : off ≤ t.length) :
    ∃ rest, cells.drop off = (t.drop off).map some ++ rest ∧ off ≤ cells.length := by
  obtain ⟨rest, rfl⟩ := h
  refine ⟨rest, ?_, by simp; omega⟩
  rw [List.drop_append_of_le_length (by simpa using ho), List.map_drop]

theorem isC_iff {s : B} : isC s = true ↔ s.mode = .cstring := by simp [isC]

theorem tr_c {m : BufferSpec.Mode} : Buffer.tr m = .cstring ↔ m = .cstring := by cases m <;> simp [Buffer.tr]

/-- With a length to copy, or a NUL to find, the offset is inside. -/
theorem given_cases {t : List UInt8} {off len : Nat} {c : Bool} (h : given t off len c = true) : len = 0 ∨ off ≤ t.length := by
  simp only [given, Bool.or_eq_true, decide_eq_true_eq, List.length_drop, Bool.and_eq_true, List.contains_iff_mem] at h
  rcases h with h | h
  · omega
  · right
    apply Decidable.byContradiction
    intro hx
    rw [List.drop_of_length_le (by omega)] at h
    simp at h

theorem given_ok {t : List UInt8} {off len : Nat} {s : B} (h : given t off len (isC s) = true) : len ≤ (t.drop off).length ∨ (s.mode = .cstring ∧ 0 ∈ t.drop off) := by
  simp only [given, Bool.or_eq_true, decide_eq_true_eq, Bool.and_eq_true, List.contains_iff_mem, isC_iff] at h
  exact h

theorem append_zero {h : Heap} {p a q off : Nat} {b : Buf} {r : List Obj} (i : Inv h (.buf p a b :: r)) : append h p q off 0 = some h := by
  simp [append, load_eq i]

/-- `BufferAppend` from another array, in terms of the byte strings. -/
theorem append_all {h : Heap} {p a q : Nat} {b : Buf} {r : List Obj} (i : Inv h (.buf p a b :: r)) {cells : List (Option UInt8)} (hq : q ∈ blocks r) (hc : h.mem q = some (.arr cells))
    {off len : Nat} {t : List UInt8} (hb : Begins cells t) {s : B} (rep : Buffer.Rep b s) (hg : given t off len (isC s) = true) (hs : s.content.length + t.length + 2 ≤ 2 ^ 32) :
    ∃ h' a' b', append h p q off len = some h' ∧ Inv h' (.buf p a' b' :: r) ∧ Same h h' r ∧ Buffer.Rep b' (BufferSpec.step s (.append (t.drop off) len)) ∧
      ((s.mode = .cstring → Buffer.Term b) → s.mode = .cstring → Buffer.Term b') := by
  obtain ⟨b', e1, e2, e3⟩ := Buffer.append_ok rep (t.drop off) len (given_ok hg) (by simp; omega)
  rcases given_cases hg with h0 | hoff
  · subst h0
    have : b' = b := by simpa [Buffer.append] using e1.symm
    subst this
    exact ⟨h, a, b', append_zero i, i, fun _ _ => rfl, e2, e3⟩
  · obtain ⟨rest, d1, d2⟩ := begins_drop hb off hoff
    obtain ⟨h', a', x, i', s'⟩ := append_eq i hq hc d1 d2 (by
      rcases given_ok hg with g | g
      · exact .inl g
      · exact .inr ⟨g.2, by rw [rep.mode, g.1]; rfl⟩) e1
    exact ⟨h', a', b', x, i', s', e2, e3⟩

theorem small_iff {n : Nat} : small n = true ↔ n + 4 ≤ 2 ^ 32 := by simp [small]

theorem rep_used_le {b : Buf} {s : B} (rep : Buffer.Rep b s) : b.used = s.content.length := rep.used

theorem step_ok {w : World} {vs vs' : List Val} {os : List Obj} {x : Nat} (r : R w vs os) (op : Op) (hs : BufHeapSpec.step vs op = some (vs', x)) :
    ∃ w' os', step w op = some (w', x) ∧ R w' vs' os' := by
  cases op with
  | new n =>
    simp only [BufHeapSpec.step] at hs
    split at hs
    · rename_i hn
      cases hs
      obtain ⟨b, e1, e2, e3⟩ := Buffer.new_ok n hn
      obtain ⟨h', x1, i1, -⟩ := new_eq r.inv e1
      exact ⟨_, _, by simp only [step, x1, Option.bind_eq_bind, Option.bind_some] <;> rfl, r.push i1 ⟨e2, fun _ => e3⟩⟩
    · cases hs
  | newFrom k off len =>
    simp only [BufHeapSpec.step, Option.bind_eq_bind, Option.bind_eq_some_iff] at hs
    obtain ⟨t, ht, hs⟩ := hs
    split at hs
    · rename_i hc
      simp only [Bool.and_eq_true, small_iff] at hc
      cases hs
      obtain ⟨a, cells, ha, hm, hb, -⟩ := r.bytes ht
      obtain ⟨b, e1, e2, e3⟩ := Buffer.new_ok (len + 1) (by omega)
      obtain ⟨h1, x1, i1, s1⟩ := new_eq r.inv e1
      have hin : a ∈ blocks os := r.inv.only a (by rw [hm]; simp)
      obtain ⟨h2, a2, b2, x2, i2, s2, e4, e5⟩ := append_all i1 hin (by rw [s1 a hin]; exact hm) hb e2 (off := off) (len := len) (by simpa [isC] using hc.1) (by simp; omega)
      refine ⟨_, _, by simp only [step, ha, newFrom, x1, x2, Option.bind_eq_bind, Option.bind_some] <;> rfl, r.push i2 ⟨?_, fun _ => e5 (fun _ => e3) rfl⟩⟩
      simpa [BufferSpec.step, BufferSpec.piece] using e4
    · cases hs
  | copy i =>
    simp only [BufHeapSpec.step, Option.bind_eq_bind, Option.bind_eq_some_iff] at hs
    obtain ⟨⟨s, n⟩, hv, hs⟩ := hs
    split at hs
    · rename_i hc
      simp only [small_iff] at hc
      cases hs
      obtain ⟨p, a, b, ho, -, rep, -, hp, hi⟩ := r.buf hv
      dsimp only at rep
      obtain ⟨nb, e1, e2, e3⟩ := Buffer.new_ok (b.used + 1) (by omega)
      obtain ⟨h1, x1, i1, s1⟩ := new_eq hi e1
      have hin : a ∈ blocks (.buf p a b :: os.eraseIdx i) := by simp [Obj.blocks]
      have hm : w.heap.mem a = some (.arr b.mem) := hi.two.2.2.2.2.1
      obtain ⟨rest, hb, -⟩ := rep.holds.ex
      obtain ⟨h2, a2, b2, x2, i2, s2, e4, e5⟩ := append_all i1 hin (by rw [s1 a hin]; exact hm) ⟨rest, hb⟩ e2 (off := 0) (len := b.used) (by simp [given, rep.used]) (by simp; omega)
      have i3 : Inv h2 (.buf w.heap.next a2 b2 :: os) := i2.perm ((focus ho).1.symm.cons _)
      refine ⟨_, _, by simp only [step, hp, copy, load_eq hi, newFrom, x1, x2, Option.bind_eq_bind, Option.bind_some] <;> rfl, r.push i3 ⟨?_, fun _ => e5 (fun _ => e3) rfl⟩⟩
      simpa [BufferSpec.step, BufferSpec.piece, rep.used] using e4
    · cases hs
  | destroy i =>
    simp only [BufHeapSpec.step, Option.bind_eq_bind, Option.bind_eq_some_iff] at hs
    obtain ⟨⟨s, n⟩, hv, hs⟩ := hs
    cases hs
    obtain ⟨p, a, b, ho, -, rep, -, hp, hi⟩ := r.buf hv
    dsimp only at rep
    obtain ⟨h', x1, i1, -⟩ := destroy_eq hi
    exact ⟨_, _, by simp only [step, hp, x1, Option.bind_eq_bind, Option.bind_some]; rfl, r.change ho (o' := .gone) (i1.noBlocks rfl trivial) fun _ => trivial⟩
  | data i =>
    simp only [BufHeapSpec.step, Option.bind_eq_bind, Option.bind_eq_some_iff] at hs
    obtain ⟨⟨s, n⟩, hv, hs⟩ := hs
    cases hs
    obtain ⟨p, a, b, ho, -, rep, -, hp, hi⟩ := r.buf hv
    dsimp only at rep
    exact ⟨_, _, by simp only [step, hp, load_eq hi, Option.bind_eq_bind, Option.bind_some]; rfl, r.push (o' := .ptr a) (r.inv.noBlocks rfl trivial) ⟨p, b, ho⟩⟩
  | close i =>
    simp only [BufHeapSpec.step, Option.bind_eq_bind, Option.bind_eq_some_iff] at hs
    obtain ⟨⟨s, n⟩, hv, hs⟩ := hs
    cases hs
    obtain ⟨p, a, b, ho, -, rep, ht, hp, hi⟩ := r.buf hv
    dsimp only at rep
    obtain ⟨h', x1, i1⟩ := close_eq hi
    have hbeg : Begins b.mem (s.content ++ if n then [0] else []) := by
      obtain ⟨rest, hm, hne⟩ := rep.holds.ex
      cases n with
      | false => exact ⟨rest, by simp [hm]⟩
      | true =>
        have ht := ht rfl
        cases rest with
        | nil => exact absurd rfl hne
        | cons c rest =>
          have : c = some 0 := by
            rw [Buffer.Term, rep.used, hm] at ht
            simpa [CMem.get] using ht
          subst this
          exact ⟨rest, by simp [hm]⟩
    have i2 : Inv h' (.gone :: .str a b.mem :: os.eraseIdx i) := i1.noBlocks rfl trivial
    have i3 : Inv h' (.str a b.mem :: os.set i .gone) := (i2.perm (List.Perm.swap _ _ _)).perm (((focus ho).2 .gone).symm.cons _)
    have r1 : R ⟨w.heap, w.held.set i Obj.gone.held⟩ (change vs i .gone) (os.set i .gone) → True := fun _ => trivial
    refine ⟨⟨h', w.held.set i .gone ++ [.str a]⟩, os.set i .gone ++ [.str a b.mem], by simp only [step, hp, x1, Option.bind_eq_bind, Option.bind_some] <;> rfl, ?_⟩
    have hlt : i < os.length := (List.getElem?_eq_some_iff.mp ho).1
    -- the buffer gone, without a statement about the memory
    have hrel : ∀ (k : Nat) (o : Obj) (v : Val), (os.set i .gone)[k]? = some o → (change vs i .gone)[k]? = some v → Rel (os.set i .gone) o v := by
      have hd := destroy_eq hi
      obtain ⟨h0, -, i0, -⟩ := hd
      exact (r.change ho (o' := .gone) (v' := .gone) (i0.noBlocks rfl trivial) fun _ => trivial).rel
    refine ⟨i3.perm (List.perm_append_comm (l₁ := [Obj.str a b.mem])), by simp [r.held, List.map_set, Obj.held], by simp [r.len, change], ?_⟩
    intro k o1 v1 h1 h2
    rw [List.getElem?_append] at h1 h2
    have hl : (os.set i .gone).length = (change vs i .gone).length := by simp [r.len, change]
    rw [hl] at h1
    split at h2
    · rename_i hk'; rw [if_pos hk'] at h1; exact (hrel k o1 v1 h1 h2).append
    · rename_i hk'; rw [if_neg hk'] at h1
      have : k - (change vs i .gone).length = 0 := by
        have := (List.getElem?_eq_some_iff.mp h2).1
        simp at this; omega
      rw [this] at h1 h2
      simp only [List.getElem?_cons_zero, Option.some.injEq] at h1 h2
      subst h1 h2
      exact hbeg
  | text t =>
    cases hs
    exact ⟨_, _, rfl, r.push (text_eq r.inv (t.map some)) ⟨[], by simp⟩⟩
  | freeText k =>
    simp only [BufHeapSpec.step] at hs
    split at hs
    · rename_i t hk
      cases hs
      obtain ⟨o, ho, hr, hh, hi⟩ := r.get hk
      cases o with
      | gone => exact hr.elim
      | ptr a => exact hr.elim
      | buf p a b => exact hr.elim
      | str a c =>
        obtain ⟨h', x1, i1⟩ := freeText_eq hi
        refine ⟨⟨h', w.held.set k .gone⟩, os.set k .gone, by simp only [step, hh, Obj.held, x1, Option.bind_eq_bind, Option.bind_some] <;> rfl, ?_⟩
        have hlt : k < os.length := (List.getElem?_eq_some_iff.mp ho).1
        refine ⟨(i1.noBlocks (o := .gone) rfl trivial).perm ((focus ho).2 .gone).symm, by simp [r.held, List.map_set, Obj.held], by simp [r.len], ?_⟩
        intro j o1 v1 h1 h2
        by_cases e : k = j
        · subst e
          rw [List.getElem?_set_self hlt] at h1
          rw [List.getElem?_set_self (by rw [← r.len]; exact hlt)] at h2
          simp only [Option.some.injEq] at h1 h2
          subst h1 h2
          trivial
        · rw [List.getElem?_set_ne e] at h1 h2
          have g := r.rel j o1 v1 h1 h2
          cases o1 <;> cases v1 <;> first | exact g.elim | exact g | skip
          obtain ⟨p', b', g⟩ := g
          refine ⟨p', b', ?_⟩
          rw [List.getElem?_set_ne]
          · exact g
          · rintro rfl; rw [ho] at g; cases g
    · cases hs
  | append i k off len =>
    simp only [BufHeapSpec.step, Option.bind_eq_bind, Option.bind_eq_some_iff] at hs
    obtain ⟨⟨s, n⟩, hv, t, ht, hs⟩ := hs
    split at hs
    · rename_i hc
      simp only [Bool.and_eq_true, small_iff] at hc
      cases hs
      obtain ⟨p, a, b, ho, -, rep, hterm, hp, hi⟩ := r.buf hv
      dsimp only at rep hterm
      obtain ⟨q, cells, hq, hm, hb, hap⟩ := r.bytes ht
      obtain ⟨h2, a2, b2, x2, i2, s2, e4, e5⟩ := append_all hi (hap i p a b ho hc.1.1) hm hb rep (off := off) (len := len) hc.1.2 (by omega)
      refine ⟨_, _, by simp only [step, hp, hq, x2, Option.bind_eq_bind, Option.bind_some] <;> rfl, r.keep ho i2 e4 ?_⟩
      intro hn
      simp only [Bool.and_eq_true, isC_iff] at hn
      exact e5 (fun _ => hterm hn.1) hn.2
    · cases hs
  | set i k off len =>
    simp only [BufHeapSpec.step, Option.bind_eq_bind, Option.bind_eq_some_iff] at hs
    obtain ⟨⟨s, n⟩, hv, t, ht, hs⟩ := hs
    split at hs
    · rename_i hc
      simp only [Bool.and_eq_true, small_iff] at hc
      cases hs
      obtain ⟨p, a, b, ho, -, rep, hterm, hp, hi⟩ := r.buf hv
      dsimp only at rep hterm
      obtain ⟨q, cells, hq, hm, hb, hap⟩ := r.bytes ht
      have hin := hap i p a b ho hc.1.1
      obtain ⟨b1, c1, c2, c3⟩ := Buffer.clear_ok rep
      obtain ⟨h1, a1, x1, i1, s1⟩ := own_eq hi (f := Buffer.clear) c1
      obtain ⟨h2, a2, b2, x2, i2, s2, e4, e5⟩ := append_all i1 hin (by rw [s1 q hin]; exact hm) hb c2 (off := off) (len := len) (by simpa [isC] using hc.1.2) (by simp; omega)
      refine ⟨_, _, by simp only [step, hp, hq, BufHeap.set, x1, x2, Option.bind_eq_bind, Option.bind_some] <;> rfl, r.keep ho i2 (by simpa [BufferSpec.step] using e4) ?_⟩
      intro hn
      exact e5 (fun _ => c3) (isC_iff.mp hn)
    · cases hs
  | appendString i k off =>
    simp only [BufHeapSpec.step, Option.bind_eq_bind, Option.bind_eq_some_iff] at hs
    obtain ⟨⟨s, n⟩, hv, t, ht, hs⟩ := hs
    split at hs
    · rename_i hc
      simp only [Bool.and_eq_true, small_iff, List.contains_iff_mem] at hc
      cases hs
      obtain ⟨p, a, b, ho, -, rep, hterm, hp, hi⟩ := r.buf hv
      dsimp only at rep hterm
      obtain ⟨q, cells, hq, hm, hb, hap⟩ := r.bytes ht
      have hoff : off ≤ t.length := by
        apply Decidable.byContradiction
        intro hx
        have := hc.1.2
        rw [List.drop_of_length_le (by omega)] at this
        simp at this
      obtain ⟨rest, d1, d2⟩ := begins_drop hb off hoff
      have hcl : (cstr (t.drop off)).length ≤ t.length := by
        have := (List.takeWhile_sublist (fun x : UInt8 => decide (x ≠ 0)) (l := t.drop off)).length_le
        simp only [List.length_drop] at this
        simp only [cstr]; omega
      obtain ⟨b1, e1, e2, e3⟩ := Buffer.appendString_ok rep (cstr (t.drop off)) (by omega)
      obtain ⟨h2, a2, x2, i2, s2⟩ := appendString_eq hi (hap i p a b ho hc.1.1) hm d1 d2 hc.1.2 e1
      exact ⟨_, _, by simp only [step, hp, hq, x2, Option.bind_eq_bind, Option.bind_some] <;> rfl, r.keep ho i2 e2 fun _ => e3⟩
    · cases hs
  | appendChar i c =>
    simp only [BufHeapSpec.step, Option.bind_eq_bind, Option.bind_eq_some_iff] at hs
    obtain ⟨⟨s, n⟩, hv, hs⟩ := hs
    split at hs
    · rename_i hc
      simp only [Bool.and_eq_true, small_iff, Bool.or_eq_true, bne_iff_ne, Bool.not_eq_true'] at hc
      cases hs
      obtain ⟨p, a, b, ho, -, rep, hterm, hp, hi⟩ := r.buf hv
      dsimp only at rep hterm
      obtain ⟨b1, e1, e2, e3⟩ := Buffer.appendChar_ok rep c (by
        rcases hc.1 with h | h
        · left
          cases hm : s.mode with
          | cstring => simp [isC, hm] at h
          | bytearray => rfl
        · exact .inr h) (by omega)
      obtain ⟨h1, a1, x1, i1, s1⟩ := own_eq hi (f := (Buffer.appendChar · c)) e1
      refine ⟨_, _, by simp only [step, hp, x1, Option.bind_eq_bind, Option.bind_some] <;> rfl, r.keep ho i1 e2 ?_⟩
      intro hn
      simp only [Bool.and_eq_true, isC_iff] at hn
      exact e3 (fun _ => hterm hn.1) hn.2
    · cases hs
  | clear i =>
    simp only [BufHeapSpec.step, Option.bind_eq_bind, Option.bind_eq_some_iff] at hs
    obtain ⟨⟨s, n⟩, hv, hs⟩ := hs
    cases hs
    obtain ⟨p, a, b, ho, -, rep, hterm, hp, hi⟩ := r.buf hv
    dsimp only at rep hterm
    obtain ⟨b1, e1, e2, e3⟩ := Buffer.clear_ok rep
    obtain ⟨h1, a1, x1, i1, s1⟩ := own_eq hi (f := Buffer.clear) e1
    exact ⟨_, _, by simp only [step, hp, x1, Option.bind_eq_bind, Option.bind_some] <;> rfl, r.keep ho i1 e2 fun _ => e3⟩
  | trim i max =>
    simp only [BufHeapSpec.step, Option.bind_eq_bind, Option.bind_eq_some_iff] at hs
    obtain ⟨⟨s, n⟩, hv, hs⟩ := hs
    cases hs
    obtain ⟨p, a, b, ho, -, rep, hterm, hp, hi⟩ := r.buf hv
    dsimp only at rep hterm
    obtain ⟨b1, e1, e2, e3⟩ := Buffer.trim_ok rep max
    obtain ⟨h1, a1, x1, i1, s1⟩ := own_eq hi (f := (Buffer.trimToMaxLength · max)) e1
    refine ⟨_, _, by simp only [step, hp, x1, Option.bind_eq_bind, Option.bind_some] <;> rfl, r.keep ho i1 e2 ?_⟩
    intro hn
    simp only [Bool.and_eq_true, isC_iff] at hn
    exact e3 (fun _ => hterm hn.1) hn.2
  | setMode i c =>
    simp only [BufHeapSpec.step, Option.bind_eq_bind, Option.bind_eq_some_iff] at hs
    obtain ⟨⟨s, n⟩, hv, hs⟩ := hs
    obtain ⟨p, a, b, ho, -, rep, hterm, hp, hi⟩ := r.buf hv
    dsimp only at rep hterm
    cases c with
    | true =>
      simp only [if_true] at hs
      cases hs
      obtain ⟨b1, e1, e2, e3⟩ := Buffer.setMode_c_ok rep
      obtain ⟨h1, a1, x1, i1, s1⟩ := own_eq hi (f := (Buffer.setMode · .cstring)) e1
      refine ⟨_, _, by simp only [step, hp, if_true, x1, Option.bind_eq_bind, Option.bind_some] <;> rfl, r.keep ho i1 e2 ?_⟩
      intro hn
      simp only [Bool.or_eq_true, Bool.and_eq_true, isC_iff, List.contains_iff_mem] at hn
      exact e3 (hn.imp_left fun h => ⟨h.2, hterm h.1⟩)
    | false =>
      simp only [Bool.false_eq_true, if_false] at hs
      cases hs
      have e1 : Buffer.setMode b .bytearray = some { b with mode := .bytearray } := by simp [Buffer.setMode]
      obtain ⟨h1, a1, x1, i1, s1⟩ := own_eq hi (f := (Buffer.setMode · .bytearray)) e1
      exact ⟨_, _, by simp only [step, hp, Bool.false_eq_true, if_false, x1, Option.bind_eq_bind, Option.bind_some] <;> rfl, r.keep ho i1 ⟨rfl, rep.cap, rep.used, rep.holds⟩ fun hn => hterm hn⟩
  | appendF i t =>
    simp only [BufHeapSpec.step, Option.bind_eq_bind, Option.bind_eq_some_iff] at hs
    obtain ⟨⟨s, n⟩, hv, hs⟩ := hs
    split at hs
    · rename_i hc
      simp only [Bool.and_eq_true, small_iff] at hc
      cases hs
      obtain ⟨p, a, b, ho, -, rep, hterm, hp, hi⟩ := r.buf hv
      dsimp only at rep hterm
      obtain ⟨b1, e1, e2, e3⟩ := Buffer.appendF_ok rep t (by omega)
      obtain ⟨h1, a1, x1, i1, s1⟩ := own_eq hi (f := (Buffer.appendF · t)) e1
      exact ⟨_, _, by simp only [step, hp, x1, Option.bind_eq_bind, Option.bind_some] <;> rfl, r.keep ho i1 e2 fun _ => e3⟩
    · cases hs
  | printf i t =>
    simp only [BufHeapSpec.step, Option.bind_eq_bind, Option.bind_eq_some_iff] at hs
    obtain ⟨⟨s, n⟩, hv, hs⟩ := hs
    split at hs
    · rename_i hc
      simp only [Bool.and_eq_true, small_iff] at hc
      cases hs
      obtain ⟨p, a, b, ho, -, rep, hterm, hp, hi⟩ := r.buf hv
      dsimp only at rep hterm
      obtain ⟨b1, e1, e2, e3⟩ := Buffer.printf_ok rep t (by omega)
      obtain ⟨h1, a1, x1, i1, s1⟩ := own_eq hi (f := (Buffer.printf · t)) e1
      exact ⟨_, _, by simp only [step, hp, x1, Option.bind_eq_bind, Option.bind_some] <;> rfl, r.keep ho i1 e2 fun _ => e3⟩
    · cases hs
  | filter i keep inv =>
    simp only [BufHeapSpec.step, Option.bind_eq_bind, Option.bind_eq_some_iff] at hs
    obtain ⟨⟨s, n⟩, hv, hs⟩ := hs
    split at hs
    · rename_i hc
      simp only [Bool.and_eq_true, small_iff, Bool.not_eq_true', List.contains_eq_mem, decide_eq_false_iff_not] at hc
      cases hs
      obtain ⟨p, a, b, ho, -, rep, hterm, hp, hi⟩ := r.buf hv
      dsimp only at rep hterm
      obtain ⟨nb, n1, n2, n3⟩ := Buffer.new_ok 4096 (by omega)
      obtain ⟨out, f1, f2, f3⟩ := Buffer.filterLoop_ok rep keep inv hc.1 (by omega) (s.content.length + 1) 0 nb _ (by omega) (by omega) n2 rfl n3 (by simp)
      obtain ⟨h', q, a', x1, i1⟩ := filter_eq hi (out := out) (keep := keep) (inv := inv) (by simp only [Buffer.filter, n1, Option.bind_eq_bind, Option.bind_some, rep.used]; exact f1)
      have i2 : Inv h' (.buf q a' out :: os) := i1.perm ((focus ho).1.symm.cons _)
      exact ⟨_, _, by simp only [step, hp, x1, Option.bind_eq_bind, Option.bind_some] <;> rfl, r.push i2 ⟨f2, fun _ => f3⟩⟩
    · cases hs
  | rewrite i keep inv =>
    simp only [BufHeapSpec.step, Option.bind_eq_bind, Option.bind_eq_some_iff] at hs
    obtain ⟨⟨s, n⟩, hv, hs⟩ := hs
    split at hs
    · rename_i hc
      simp only [Bool.and_eq_true, small_iff, Bool.not_eq_true', List.contains_eq_mem, decide_eq_false_iff_not] at hc
      cases hs
      obtain ⟨p, a, b, ho, -, rep, hterm, hp, hi⟩ := r.buf hv
      dsimp only at rep hterm
      obtain ⟨nb, n1, n2, n3⟩ := Buffer.new_ok 4096 (by omega)
      obtain ⟨out, f1, f2, f3⟩ := Buffer.filterLoop_ok rep keep inv hc.1 (by omega) (s.content.length + 1) 0 nb _ (by omega) (by omega) n2 rfl n3 (by simp)
      obtain ⟨h', q, a', x1, i1⟩ := filter_eq hi (out := out) (keep := keep) (inv := inv) (by simp only [Buffer.filter, n1, Option.bind_eq_bind, Option.bind_some, rep.used]; exact f1)
      have i1' := i1.perm (List.Perm.swap _ _ _)
      obtain ⟨b1, c1, c2, c3⟩ := Buffer.clear_ok rep
      obtain ⟨h1, a1, y1, j1, s1⟩ := own_eq i1' (f := Buffer.clear) c1
      have hin : a' ∈ blocks (.buf q a' out :: os.eraseIdx i) := by simp [Obj.blocks]
      have hm : h'.mem a' = some (.arr out.mem) := i1.two.2.2.2.2.1
      obtain ⟨rest, hb, -⟩ := f2.holds.ex
      have hfl : (s.content.filter fun c => keep c != inv).length ≤ s.content.length := List.length_filter_le _ _
      obtain ⟨h2, a2, b2, x2, i2, s2, e4, e5⟩ := append_all j1 hin (by rw [s1 a' hin]; exact hm) ⟨rest, hb⟩ c2 (off := 0) (len := out.used) (by simp [given, f2.used]) (by simp; omega)
      obtain ⟨h3, x3, i3, -⟩ := destroy_eq (i2.perm (List.Perm.swap _ _ _))
      have hl : load h' q = some (a', out) := load_eq i1
      refine ⟨_, _, by simp only [step, hp, rewrite, x1, hl, BufHeap.set, y1, x2, x3, Option.bind_eq_bind, Option.bind_some] <;> rfl, r.keep ho i3 (s := BufferSpec.step s (.rewrite keep inv)) ?_ fun hn => e5 (fun _ => c3) (isC_iff.mp hn)⟩
      have hnn : 0 ∉ s.content.filter fun c => keep c != inv := fun hx => hc.1 ((List.mem_filter.mp hx).1)
      have hpc : BufferSpec.piece s.mode ((s.content.filter fun c => keep c != inv).drop 0) out.used = s.content.filter fun c => keep c != inv := by
        rw [f2.used, List.drop_zero]
        cases s.mode with
        | cstring => simp only [BufferSpec.piece, List.take_length]; exact Buffer.cstr_of_no_nul _ hnn
        | bytearray => simp only [BufferSpec.piece, List.take_length]
      simpa only [BufferSpec.step, List.nil_append, hpc] using e4
    · cases hs
  | size i =>
    simp only [BufHeapSpec.step, Option.bind_eq_bind, Option.bind_eq_some_iff] at hs
    obtain ⟨⟨s, n⟩, hv, hs⟩ := hs
    cases hs
    obtain ⟨p, a, b, ho, -, rep, hterm, hp, hi⟩ := r.buf hv
    dsimp only at rep hterm
    exact ⟨w, os, by simp only [step, hp, load_eq hi, Option.bind_eq_bind, Option.bind_some, rep.used], r⟩
  | read k off =>
    simp only [BufHeapSpec.step, Option.bind_eq_bind, Option.bind_eq_some_iff] at hs
    obtain ⟨t, ht, c, hc, hs⟩ := hs
    cases hs
    obtain ⟨a, cells, ha, hm, ⟨rest, hb⟩, -⟩ := r.bytes ht
    have hl : off < t.length := (List.getElem?_eq_some_iff.mp hc).1
    have hg : CMem.get cells off = some c := by
      have := Buffer.get_at t rest off hl
      rw [List.getElem?_eq_getElem hl] at hc
      simp only [Option.some.injEq] at hc
      rw [hb, this, hc]
    exact ⟨w, os, by simp only [step, ha, arrAt, hm, hg, Option.bind_eq_bind, Option.bind_some] <;> rfl, r⟩

theorem run_ok : ∀ (ops : List Op) {w : World} {vs vs' : List Val} {os : List Obj} {xs : List Nat}, R w vs os → BufHeapSpec.run vs ops = some (vs', xs) →
    ∃ w' os', run w ops = some (w', xs) ∧ R w' vs' os' := by
  intro ops
  induction ops with
  | nil => intro w vs vs' os xs r h; cases h; exact ⟨w, os, rfl, r⟩
  | cons op ops ih =>
    intro w vs vs' os xs r h
    simp only [BufHeapSpec.run, Option.bind_eq_bind, Option.bind_eq_some_iff] at h
    obtain ⟨⟨vs1, x⟩, h1, ⟨vs2, ys⟩, h2, h⟩ := h
    cases h
    obtain ⟨w1, os1, e1, r1⟩ := step_ok r op h1
    obtain ⟨w2, os2, e2, r2⟩ := ih r1 h2
    exact ⟨w2, os2, by simp only [run, e1, e2, Option.bind_eq_bind, Option.bind_some], r2⟩

theorem init_R : R init [] [] := ⟨⟨by simp, by simp, by simp [init], by simp⟩, rfl, rfl, by simp⟩

theorem sizes {os : List Obj} {vs : List Val} (len : os.length = vs.length) (os0 : List Obj) (rel : ∀ (i : Nat) (o : Obj) (v : Val), os[i]? = some o → vs[i]? = some v → Rel os0 o v) :
    (blocks os).length = (vs.map Val.size).sum := by
  induction os generalizing vs with
  | nil => cases vs <;> simp_all
  | cons o os ih =>
    cases vs with
    | nil => simp at len
    | cons v vs =>
      have h := rel 0 o v rfl rfl
      have := ih (vs := vs) (by simpa using len) fun i o v h1 h2 => rel (i + 1) o v (by simpa using h1) (by simpa using h2)
      rw [blocks_cons, List.length_append, this, List.map_cons, List.sum_cons]
      congr 1
      cases o <;> cases v <;> first | exact h.elim | rfl

end BufHeap

/-- **C188.** Any program whose calls are allowed runs without undefined behaviour and its calls return what they should: each buffer is a byte string of its own, whatever happens to
the others, and a pointer to its bytes shows them until it changes. The memory in use is exactly that of the buffers and arrays there are. -/
theorem C188_any_program (ops : List Op) (vs : List Val) (xs : List Nat) (h : BufHeapSpec.run [] ops = some (vs, xs)) :
    ∃ w, run init ops = some (w, xs) ∧ ∃ used : List Nat, used.Nodup ∧ (∀ a, w.heap.mem a ≠ none ↔ a ∈ used) ∧ used.length = (vs.map Val.size).sum := by
  obtain ⟨w, os, e, r⟩ := run_ok ops init_R h
  exact ⟨w, e, blocks os, r.inv.nodup, r.inv.iff, sizes r.len os r.rel⟩

/-- **C188.** When every buffer has been destroyed or closed and every array freed, no memory is left. -/
theorem C188_nothing_left (ops : List Op) (vs : List Val) (xs : List Nat) (h : BufHeapSpec.run [] ops = some (vs, xs)) (hg : ∀ v ∈ vs, v.size = 0) :
    ∃ w, run init ops = some (w, xs) ∧ ∀ a, w.heap.mem a = none := by
  obtain ⟨w, e, used, -, h2, h3⟩ := C188_any_program ops vs xs h
  refine ⟨w, e, fun a => ?_⟩
  have : (vs.map Val.size).sum = 0 := by
    clear h h3
    induction vs with
    | nil => rfl
    | cons v vs ih => simp [hg v (by simp), ih fun v hv => hg v (by simp [hv])]
  rw [this, List.length_eq_zero_iff] at h3
  subst h3
  apply Decidable.byContradiction
  intro hx
  simpa using (h2 a).mp hx


/-! ## A program that meets the hypothesis -/

/-- A buffer of room 8 with `abcd`; a pointer to its bytes; a second buffer that takes two bytes through it and then a character; the first is cleared; the second is as it was;
it is closed and the array read; all is freed. -/
def C188_program : List Op :=
  [.new 8, .text [97, 98, 99, 100, 0], .appendString 0 1 0, .data 0, .read 2 3, .newFrom 2 1 2, .appendChar 3 120, .clear 0, .size 0, .size 3, .close 3, .read 4 0, .read 4 2, .read 4 3,
   .freeText 4, .freeText 1, .destroy 0]

example : ∃ vs, BufHeapSpec.run [] C188_program = some (vs, [0, 0, 0, 0, 100, 0, 0, 0, 0, 3, 0, 98, 120, 0, 0, 0, 0]) ∧ ∀ v ∈ vs, v.size = 0 :=
  ⟨_, rfl, by decide⟩

/-! ## What the conditions are for -/

/-- **C188, appending a part of a buffer to itself.** With too little room the array moves, and the pointer that was given leads to freed memory. -/
theorem C188_self_append_negated : run init [.new 8, .text [97, 98, 99, 100, 0], .appendString 0 1 0, .data 0, .append 0 2 0 4] = none := by decide +kernel

/-- With room it works. -/
theorem C188_self_append_room : (run init [.new 64, .text [97, 98, 99, 100, 0], .appendString 0 1 0, .data 0, .append 0 2 0 4, .size 0, .read 2 7, .read 2 8]).map (·.2) =
    some [0, 0, 0, 0, 0, 8, 100, 0] := by decide +kernel

/-- **C188, setting a buffer from its own bytes.** `BufferSet` clears first, so the text is gone before it is copied. -/
theorem C188_set_from_itself_negated : (run init [.new 64, .text [97, 98, 99, 100, 0], .appendString 0 1 0, .data 0, .size 0, .set 0 2 0 4, .size 0]).map (·.2) =
    some [0, 0, 0, 0, 4, 0, 0] := by decide +kernel

/-- **C188, a pointer to the bytes after the buffer grew** leads to freed memory. -/
theorem C188_stale_pointer_negated : (run init [.new 4, .data 0, .read 1 0]).map (·.2) = some [0, 0, 0] ∧
    run init [.new 4, .data 0, .text [97, 98, 99, 100, 0], .appendString 0 2 0, .read 1 0] = none := by decide +kernel

/-- **C188, the array of a closed buffer of bytes** has no terminator: what is after the last byte was never written. -/
theorem C188_close_bytes_negated : run init [.new 16, .setMode 0 false, .text [97, 98], .append 0 1 0 2, .close 0, .read 2 2] = none := by decide +kernel
