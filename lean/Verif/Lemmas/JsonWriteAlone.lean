import Verif.Lemmas.JsonWriteThreads
/-! # A thread that writes alone does what the functions do -/
namespace JsonHeap
open Json

/-! ## Running alone -/

/-- The program, alone on this memory, ends with this result and this memory, within this number of steps. -/
inductive Ends {α : Type} : Heap → Prog α → α → Heap → Nat → Prop
  | ret (h : Heap) (a : α) : Ends h (.ret a) a h 0
  | step {h h1 h' : Heap} {p p1 : Prog α} {a : α} {n : Nat} : p.step h = some (h1, p1) → Ends h1 p1 a h' n → Ends h p a h' (n + 1)

def Does {α : Type} (h : Heap) (p : Prog α) (a : α) (h' : Heap) : Prop := ∃ n, Ends h p a h' n

theorem Does.ret {α : Type} (h : Heap) (a : α) : Does h (.ret a) a h := ⟨0, .ret h a⟩

theorem Does.step {α : Type} {h h1 h' : Heap} {p p1 : Prog α} {a : α} (hs : p.step h = some (h1, p1)) (hd : Does h1 p1 a h') : Does h p a h' := by
  obtain ⟨n, hn⟩ := hd
  exact ⟨n + 1, .step hs hn⟩

theorem Ends.bind {α β : Type} {h h1 h2 : Heap} {p : Prog α} {a : α} {n : Nat} {f : α → Prog β} {b : β} (hp : Ends h p a h1 n) (hf : Does h1 (f a) b h2) : Does h (p.bind f) b h2 := by
  induction hp with
  | ret h a => exact hf
  | @step h h1 h' p p1 a n hs _ ih =>
    have ih := ih hf
    cases p with
    | ret x => simp only [Prog.step, Option.some.injEq, Prod.mk.injEq] at hs; obtain ⟨rfl, rfl⟩ := hs; exact ih
    | cell x k =>
      refine .step (h1 := h1) (p1 := p1.bind f) ?_ ih
      simp only [Prog.bind, Prog.step] at hs ⊢
      cases hc : h.cell x with
      | none => rw [hc] at hs; cases hs
      | some c =>
        rw [hc] at hs
        cases c <;> simp only [Option.some.injEq, Prod.mk.injEq, reduceCtorEq] at hs ⊢ <;> obtain ⟨rfl, rfl⟩ := hs <;> exact ⟨rfl, rfl⟩
    | len s k =>
      refine .step (h1 := h1) (p1 := p1.bind f) ?_ ih
      simp only [Prog.bind, Prog.step, Option.map_eq_some_iff, Prod.mk.injEq] at hs ⊢
      obtain ⟨xs, h1, rfl, rfl⟩ := hs
      exact ⟨xs, h1, rfl, rfl⟩
    | slot s i k =>
      refine .step (h1 := h1) (p1 := p1.bind f) ?_ ih
      simp only [Prog.bind, Prog.step, Option.map_eq_some_iff, Option.bind_eq_some_iff, Prod.mk.injEq] at hs ⊢
      obtain ⟨xs, h1, x, h2, rfl, rfl⟩ := hs
      exact ⟨xs, h1, x, h2, rfl, rfl⟩
    | put s i v k =>
      refine .step (h1 := h1) (p1 := p1.bind f) ?_ ih
      simp only [Prog.bind, Prog.step, Option.bind_eq_some_iff] at hs ⊢
      obtain ⟨xs, h1, hs⟩ := hs
      refine ⟨xs, h1, ?_⟩
      split at hs
      · rename_i hl
        rw [if_pos hl]
        simp only [Option.map_eq_some_iff, Prod.mk.injEq] at hs ⊢
        obtain ⟨h2, e, rfl, rfl⟩ := hs
        exact ⟨h2, e, rfl, rfl⟩
      · cases hs
    | fail => cases hs

theorem Does.bind {α β : Type} {h h1 h2 : Heap} {p : Prog α} {a : α} {f : α → Prog β} {b : β} (hp : Does h p a h1) (hf : Does h1 (f a) b h2) : Does h (p.bind f) b h2 := by
  obtain ⟨n, hn⟩ := hp
  exact hn.bind hf

theorem Quiet.ends {α : Type} {h : Heap} {p : Prog α} {a : α} {n : Nat} (hq : Quiet h p a n) : Ends h p a h n := by
  induction n generalizing p with
  | zero => rw [quiet_done hq rfl]; exact .ret h a
  | succ n ih =>
    obtain ⟨p', e, q⟩ := hq.step
    exact .step e (ih q)

theorem Calm.does {α : Type} {h : Heap} {p : Prog α} {a : α} (hq : Calm h p a) : Does h p a h := by
  obtain ⟨n, hn⟩ := hq
  exact ⟨n, hn.ends⟩

theorem Does.cell {α : Type} {h h' : Heap} {a : Nat} {k : Cell → Prog α} {c : Cell} {r : α} (h1 : h.cell a = some c) (h2 : ∀ xs, c ≠ .seq xs) (hk : Does h (k c) r h') : Does h (.cell a k) r h' := by
  refine .step ?_ hk
  cases c with
  | seq xs => exact absurd rfl (h2 xs)
  | str b => simp only [Prog.step, h1]
  | elem n b => simp only [Prog.step, h1]

theorem Does.len {α : Type} {h h' : Heap} {s : Nat} {k : Nat → Prog α} {xs : List Nat} {r : α} (h1 : getSeq h s = some xs) (hk : Does h (k xs.length) r h') : Does h (.len s k) r h' :=
  .step (by simp only [Prog.step, h1, Option.map_some]) hk

theorem Does.slot {α : Type} {h h' : Heap} {s i : Nat} {k : Nat → Prog α} {xs : List Nat} {x : Nat} {r : α} (h1 : getSeq h s = some xs) (h2 : xs[i]? = some x) (hk : Does h (k x) r h') : Does h (.slot s i k) r h' :=
  .step (by simp only [Prog.step, h1, h2, Option.bind_some, Option.map_some]) hk

/-! ## Sorting -/

/-- The memory with other pointers in an array. -/
def upd (h : Heap) (s : Nat) (zs : List Nat) : Heap := ⟨fun x => if x = s then some (.seq zs) else h.cell x, h.next⟩

theorem upd_seq (h : Heap) (s : Nat) (zs : List Nat) : getSeq (upd h s zs) s = some zs := by simp [getSeq, upd]

theorem Does.put {α : Type} {h h' : Heap} {s i v : Nat} {k : Prog α} {zs : List Nat} {r : α} (hi : i < zs.length) (hk : Does (upd h s (zs.set i v)) k r h') : Does (upd h s zs) (.put s i v k) r h' := by
  refine .step (h1 := upd h s (zs.set i v)) (p1 := k) ?_ hk
  simp only [Prog.step, upd_seq, Option.bind_some, hi, if_true]
  simp only [store, upd, if_true, Option.map_some, Option.some.injEq, Prod.mk.injEq, and_true, Heap.mk.injEq]
  funext x
  split <;> rfl

variable {h : Heap} {s : Nat} {nm : Nat → Bytes}

/-- The names of these elements, in memory, whatever the array holds. -/
def Names (h : Heap) (s : Nat) (nm : Nat → Bytes) (zs : List Nat) : Prop := ∀ x ∈ zs, ∀ ys, NameAt (upd h s ys) x (nm x)

/-- The comparison of the sort. -/
def byName (nm : Nat → Bytes) (x y : Nat) : Int := Str.cmpSign id (nm x) (nm y)

theorem get_data {zs : List Nat} {l x : Nat} (hg : CMem.get (zs.map some ++ [none]) l = some x) : zs[l]? = some x := by
  by_cases hl : l < zs.length
  · rw [Seqn.get_app hl] at hg
    rw [List.getElem?_eq_getElem hl]
    exact hg
  · simp only [CMem.get] at hg
    rw [List.getElem?_append_right (by simpa using hl)] at hg
    simp only [List.length_map] at hg
    cases hq : ([none] : List (Option Nat))[l - zs.length]? with
    | none => rw [hq] at hg; cases hg
    | some o =>
      rw [hq] at hg
      have := List.mem_of_getElem? hq
      simp only [List.mem_singleton] at this
      subst this
      cases hg

theorem set_data {zs : List Nat} {l x : Nat} (hl : l < zs.length) : (zs.map some ++ [none]).set l (some x) = (zs.set l x).map some ++ [none] := by
  rw [List.set_append_left _ _ (by simpa using hl), List.map_set]

theorem scanUp_does {zs : List Nat} {p : Nat} (hp : p ∈ zs) (hn : Names h s nm zs) : ∀ (n l l' : Nat), Seqn.scanUp (byName nm) (zs.map some ++ [none]) p n l = some l' → Calm (upd h s zs) (scanUpP s p n l) l' := by
  intro n
  induction n with
  | zero => intro l l' he; cases he
  | succ n ih =>
    intro l l' he
    simp only [Seqn.scanUp, Option.bind_eq_bind, Option.bind_eq_some_iff] at he
    obtain ⟨x, hx, he⟩ := he
    have hx := get_data hx
    refine .slot (upd_seq ..) hx ((compareP_ok (hn x (List.mem_of_getElem? hx) _) (hn p hp _)).bind ?_)
    by_cases hc : byName nm x p < 0
    · rw [if_pos hc] at he
      rw [if_pos (show Str.cmpSign id (nm x) (nm p) < 0 from hc)]
      exact ih _ _ he
    · rw [if_neg hc] at he
      rw [if_neg (show ¬ Str.cmpSign id (nm x) (nm p) < 0 from hc)]
      cases he
      exact .ret _

theorem scanDown_does {zs : List Nat} {p : Nat} (hp : p ∈ zs) (hn : Names h s nm zs) : ∀ (n r r' : Nat), Seqn.scanDown (byName nm) (zs.map some ++ [none]) p n r = some r' → Calm (upd h s zs) (scanDownP s p n r) r' := by
  intro n
  induction n with
  | zero => intro r r' he; cases he
  | succ n ih =>
    intro r r' he
    cases r with
    | zero => cases he
    | succ r =>
      simp only [Seqn.scanDown, Option.bind_eq_bind, Option.bind_eq_some_iff] at he
      obtain ⟨x, hx, he⟩ := he
      have hx := get_data hx
      refine .slot (upd_seq ..) hx ((compareP_ok (hn x (List.mem_of_getElem? hx) _) (hn p hp _)).bind ?_)
      by_cases hc : byName nm x p > 0
      · rw [if_pos hc] at he
        rw [if_pos (show Str.cmpSign id (nm x) (nm p) > 0 from hc)]
        exact ih _ _ he
      · rw [if_neg hc] at he
        rw [if_neg (show ¬ Str.cmpSign id (nm x) (nm p) > 0 from hc)]
        cases he
        exact .ret _

theorem swap_does {zs : List Nat} {l r : Nat} {D : List (Option Nat)} (he : Seqn.swap (zs.map some ++ [none]) l r = some D) :
    ∃ zs' : List Nat, D = zs'.map some ++ [none] ∧ zs'.Perm zs ∧ ∀ {α : Type} (k : Prog α) (a : α) (h' : Heap), Does (upd h s zs') k a h' → Does (upd h s zs) (swapP s l r k) a h' := by
  simp only [Seqn.swap, Option.bind_eq_bind, Option.bind_eq_some_iff] at he
  obtain ⟨t, ht, u, hu, D1, h1, h2⟩ := he
  have ht := get_data ht
  have hu := get_data hu
  obtain ⟨hl, htl⟩ := List.getElem?_eq_some_iff.mp ht
  obtain ⟨hr, hur⟩ := List.getElem?_eq_some_iff.mp hu
  have e1 : D1 = (zs.set l u).map some ++ [none] := by
    rw [CMem.write_eq (by simp; omega)] at h1
    rw [← set_data hl]
    exact (Option.some.inj h1).symm
  subst e1
  have e2 : D = ((zs.set l u).set r t).map some ++ [none] := by
    rw [CMem.write_eq (by simp; omega)] at h2
    rw [← set_data (by simpa using hr)]
    exact (Option.some.inj h2).symm
  refine ⟨_, e2, ?_, fun k a h' hk => .slot (upd_seq ..) ht (.slot (upd_seq ..) hu (.put hl (.put (by simpa using hr) hk)))⟩
  subst htl hur
  exact List.set_set_perm hl hr

theorem Names.perm {zs zs' : List Nat} (hn : Names h s nm zs) (hp : zs'.Perm zs) : Names h s nm zs' := fun x hx => hn x (hp.mem_iff.mp hx)

theorem partition_does {p : Nat} : ∀ (n : Nat) (zs : List Nat) (l r : Nat) (D : List (Option Nat)) (lr : Nat × Nat), p ∈ zs → Names h s nm zs → Seqn.partition (byName nm) p n (zs.map some ++ [none]) l r = some (D, lr) →
    ∃ zs' : List Nat, D = zs'.map some ++ [none] ∧ zs'.Perm zs ∧ Does (upd h s zs) (partitionP s p (zs.length + 2) n l r) lr (upd h s zs') := by
  intro n
  induction n with
  | zero => intro zs l r D lr _ _ he; cases he
  | succ n ih =>
    intro zs l r D lr hp hn he
    simp only [Seqn.partition] at he
    rw [partitionP]
    split at he
    · rename_i hlr
      rw [if_pos hlr]
      simp only [Option.bind_eq_bind, Option.bind_eq_some_iff] at he
      obtain ⟨l1, h1, r1, h2, he⟩ := he
      have e : (zs.map some ++ [none]).length + 1 = zs.length + 2 := by simp
      rw [e] at h1 h2
      have hd1 := (scanUp_does hp hn _ _ _ h1).does
      have hd2 := (scanDown_does hp hn _ _ _ h2).does
      split at he
      · rename_i hlr1
        simp only [Option.bind_eq_some_iff] at he
        obtain ⟨D1, h3, he⟩ := he
        obtain ⟨zs1, rfl, hp1, hsw⟩ := swap_does (h := h) (s := s) h3
        obtain ⟨zs2, e2, hp2, hd3⟩ := ih zs1 _ _ D lr (hp1.mem_iff.mpr hp) (hn.perm hp1) he
        refine ⟨zs2, e2, hp2.trans hp1, hd1.bind (hd2.bind ?_)⟩
        rw [if_pos hlr1]
        rw [hp1.length_eq] at hd3
        exact hsw _ _ _ hd3
      · rename_i hlr1
        obtain ⟨zs2, e2, hp2, hd3⟩ := ih zs _ _ D lr hp hn he
        refine ⟨zs2, e2, hp2, hd1.bind (hd2.bind ?_)⟩
        rw [if_neg hlr1]
        exact hd3
    · rename_i hlr
      rw [if_neg hlr]
      simp only [Option.some.injEq, Prod.mk.injEq] at he
      obtain ⟨rfl, rfl⟩ := he
      exact ⟨zs, rfl, .refl _, .ret _ _⟩

theorem quickSort_does : ∀ (fuel : Nat) (zs : List Nat) (off n : Nat) (D : List (Option Nat)), Names h s nm zs → Seqn.quickSort (byName nm) fuel (zs.map some ++ [none]) off n = some D →
    ∃ zs' : List Nat, D = zs'.map some ++ [none] ∧ zs'.Perm zs ∧ Does (upd h s zs) (quickSortP s (zs.length + 2) fuel off n) () (upd h s zs') := by
  intro fuel
  induction fuel with
  | zero => intro zs off n D _ he; cases he
  | succ fuel ih =>
    intro zs off n D hn he
    simp only [Seqn.quickSort] at he
    rw [quickSortP]
    split at he
    · rename_i hlt
      rw [if_pos hlt]
      cases he
      exact ⟨zs, rfl, .refl _, .ret _ _⟩
    · rename_i hlt
      rw [if_neg hlt]
      simp only [Option.bind_eq_bind, Option.bind_eq_some_iff] at he
      obtain ⟨p, hp, ⟨D1, l, r⟩, hpart, D2, h2, h3⟩ := he
      have hp := get_data hp
      obtain ⟨zs1, rfl, hp1, hd1⟩ := partition_does _ zs _ _ _ (l, r) (List.mem_of_getElem? hp) hn hpart
      obtain ⟨zs2, rfl, hp2, hd2⟩ := ih zs1 _ _ _ (hn.perm hp1) h2
      obtain ⟨zs3, rfl, hp3, hd3⟩ := ih zs2 _ _ _ (hn.perm (hp2.trans hp1)) h3
      rw [hp2.length_eq, hp1.length_eq] at hd3
      rw [hp1.length_eq] at hd2
      exact ⟨zs3, rfl, hp3.trans (hp2.trans hp1), .slot (upd_seq ..) hp (hd1.bind (hd2.bind hd3))⟩

/-- The sort of the children of an object, with names read as it goes, is the sort by names read before. -/
theorem sort_does {h h' : Heap} {s : Nat} {xs : List Nat} (hs : getSeq h s = some xs) (nm : Nat → Bytes) (hnm : ∀ x ∈ xs, nameOf h x = some (nm x)) (he : sortChildren h s = some h') : Does h (sortP s) () h' := by
  have hc : h.cell s = some (.seq xs) := by
    simp only [getSeq] at hs
    split at hs
    · rename_i z hz; cases hs; exact hz
    · cases hs
  have hself : upd h s xs = h := by
    simp only [upd]
    cases h with
    | mk cell next =>
      congr 1
      funext a
      split
      · rename_i e; subst e; exact hc.symm
      · rfl
  have hn : Names h s nm xs := by
    intro x hx ys
    have hx := hnm x hx
    simp only [nameOf, Option.bind_eq_bind, Option.bind_eq_some_iff] at hx
    obtain ⟨⟨o, body⟩, h1, n, rfl, h2⟩ := hx
    refine ⟨n, body, ?_, ?_⟩
    · simp only [getElem] at h1
      split at h1
      · rename_i o b hz
        cases h1
        have : x ≠ s := by rintro rfl; rw [hc] at hz; cases hz
        simp only [upd, if_neg this, hz]
      · cases h1
    · simp only [getStr] at h2
      split at h2
      · rename_i b hz
        cases h2
        have : n ≠ s := by rintro rfl; rw [hc] at hz; cases hz
        simp only [upd, if_neg this, hz]
      · cases h2
  have hnamed : ∀ zs : List Nat, (∀ x ∈ zs, nameOf h x = some (nm x)) → named h zs = some (zs.map fun x => (nm x, x)) := by
    intro zs
    induction zs with
    | nil => intro _; rfl
    | cons z zs ih => intro hz; simp only [named, hz z (by simp), ih fun x hx => hz x (by simp [hx]), Option.bind_some, Option.map_some, List.map_cons]
  have hm := Seqn.quickSort_map (cp := byName nm) (cq := fun a b : Bytes × Nat => Str.cmpSign id a.1 b.1) (fun x => (nm x, x)) (fun _ _ => rfl) (xs.length + 1) (xs.map some ++ [none]) 0 xs.length
  have e0 : (xs.map some ++ [none]).map (Option.map fun x => (nm x, x)) = (xs.map fun x => (nm x, x)).map some ++ [none] := by simp
  rw [e0] at hm
  simp only [sortChildren, hs, hnamed xs hnm, Option.bind_eq_bind, Option.bind_some, Seqn.sort, List.length_map, hm, Option.bind_eq_some_iff, Option.map_eq_some_iff, Option.some.injEq] at he
  obtain ⟨q, ⟨D0, ⟨D, hD, rfl⟩, rfl⟩, ys, hy, hst⟩ := he
  obtain ⟨zs', rfl, hp, hd⟩ := quickSort_does (h := h) (s := s) _ xs 0 xs.length D hn hD
  rw [hself] at hd
  have hy2 : ys.map Prod.snd = zs' := by
    simp only [Seqn.getRange_map, Option.map_eq_some_iff] at hy
    obtain ⟨ws, hw, rfl⟩ := hy
    rw [List.map_map]
    have : CMem.getRange (zs'.map some ++ [none]) 0 xs.length = some zs' := by
      have := Seqn.getRange_mid (P := Nat) (s := { hasDestroy := true, data := zs'.map some ++ [none], length := zs'.length, capacity := zs'.length + 1 }) (l := zs') (Seqn.Rep.has (rest := [none]) ⟨rfl, rfl, by simp, by simp, rfl⟩) 0 zs'.length (by omega)
      rw [← hp.length_eq]
      simpa using this
    rw [this] at hw
    cases hw
    simp [Function.comp_def]
  have hh : h' = upd h s zs' := by
    rw [hy2] at hst
    simp only [store, hc, Option.map_some, Option.some.injEq] at hst
    exact hst.symm
  rw [hh]
  exact .len hs hd

theorem named_some {h : Heap} : ∀ (xs : List Nat) (r : List (Bytes × Nat)), named h xs = some r → ∀ x ∈ xs, ∃ b, nameOf h x = some b := by
  intro xs
  induction xs with
  | nil => intro r _ x hx; simp at hx
  | cons y xs ih =>
    intro r he x hx
    simp only [named, Option.bind_eq_some_iff, Option.map_eq_some_iff] at he
    obtain ⟨b, hb, q, hq, _⟩ := he
    rcases List.mem_cons.mp hx with rfl | hx
    · exact ⟨b, hb⟩
    · exact ih q hq x hx

theorem sortP_does {h h' : Heap} {s : Nat} (he : sortChildren h s = some h') : Does h (sortP s) () h' := by
  have he0 := he
  simp only [sortChildren, Option.bind_eq_bind, Option.bind_eq_some_iff] at he0
  obtain ⟨xs, hs, r, hr, _⟩ := he0
  refine sort_does hs (fun x => (nameOf h x).getD []) (fun x hx => ?_) he
  obtain ⟨b, hb⟩ := named_some xs r hr x hx
  rw [hb]; rfl

/-! ## Writing -/

theorem nameP_does {h : Heap} {x : Nat} {b : Bytes} (hx : nameOf h x = some b) : Does h (nameP x) b h := by
  refine (nameP_ok ?_).does
  simp only [nameOf, Option.bind_eq_bind, Option.bind_eq_some_iff] at hx
  obtain ⟨⟨o, body⟩, h1, n, rfl, h2⟩ := hx
  refine ⟨n, body, ?_, ?_⟩
  · simp only [getElem] at h1
    split at h1
    · rename_i o b hz; cases h1; exact hz
    · cases h1
  · simp only [getStr] at h2
    split at h2
    · rename_i b hz; cases h2; exact hz
    · cases h2

theorem textP_does {h : Heap} {v : SPtr} {b : Bytes} (hv : getStr h v = some b) : Does h (textP v) b h := by
  cases v with
  | lit c => simp only [getStr, Option.some.injEq] at hv; subst hv; exact .ret _ _
  | «at» a =>
    simp only [getStr] at hv
    split at hv
    · rename_i c hz; cases hv; exact .cell hz (by simp) (.ret _ _)
    · cases hv

theorem elem_cell {h : Heap} {a : Nat} {r : Option Nat × Body} (hg : getElem h a = some r) : h.cell a = some (.elem r.1 r.2) := by
  simp only [getElem] at hg
  split at hg
  · rename_i n b hz; cases hg; exact hz
  · cases hg

def DoesAt (st : Style) (n : Nat) : Prop := ∀ (t : HT) (lvl : Nat) (h : Heap) (R : Blocks) (text : Bytes) (e' : Elem), t.Valid → t.depth ≤ n → Is h (t.blocks + R) → writeG st lvl t.elem = some (text, e') →
  ∀ (x : Bytes) (h' : Heap), writeN st n lvl h t.root = some (x, h') → Does h (writeP st n lvl t.root) x h'

theorem seq_of {h : Heap} {m : Blocks} {s : Nat} {xs : List Nat} (hI : Is h m) (hm : (s, .seq xs) ∈ m) : getSeq h s = some xs := by
  simp only [getSeq, (hI.mem s (.seq xs)).mpr hm]

theorem each_does {st : Style} {n : Nat} (ih : DoesAt st n) (lvl : Nat) {s : Nat} {xs : List Nat} : ∀ (ks : List HT) (i : Nat) (h : Heap) (R : Blocks) (r : List (Bytes × Elem)), ValidL ks → depthL ks ≤ n → Is h (blocksL ks + R) → (s, .seq xs) ∈ R →
    xs.drop i = ks.map HT.root → writeGKids st lvl (elems ks) = some r → ∀ (ts : List Bytes) (h' : Heap), writeEach (writeN st n lvl) h (ks.map HT.root) = some (ts, h') → Does h (eachP (writeP st n lvl) s ks.length i) ts h' := by
  intro ks
  induction ks with
  | nil =>
    intro i h R r _ _ _ _ _ _ ts h' he
    simp only [List.map_nil, writeEach, Option.some.injEq, Prod.mk.injEq] at he
    obtain ⟨rfl, rfl⟩ := he
    exact .ret _ _
  | cons k ks ihl =>
    intro i h R r hv hd hI hm hx hr ts h' he
    have hw := hr
    simp only [elems, writeGKids, Option.bind_eq_some_iff, Option.map_eq_some_iff] at hr
    obtain ⟨y, hy, r1, hr1, rfl⟩ := hr
    simp only [ValidL] at hv
    simp only [depthL] at hd
    simp only [blocksL, add_assoc] at hI
    simp only [List.map_cons] at hx
    obtain ⟨g1, g2⟩ := getElem?_drop_cons hx
    obtain ⟨h1, t1, e1, i1, _, _, _, v1, _⟩ := writeN_ok st n k lvl h _ y.1 y.2 hv.1 (by omega) hI hy
    simp only [List.map_cons, writeEach, e1, Option.bind_eq_bind, Option.bind_some, Option.bind_eq_some_iff, Option.some.injEq, Prod.mk.injEq] at he
    obtain ⟨⟨ts1, h2⟩, e2, rfl, rfl⟩ := he
    have d1 := ih k lvl h _ y.1 y.2 hv.1 (by omega) hI hy _ _ e1
    have d2 := ihl (i + 1) h1 (t1.blocks + R) r1 hv.2 (by omega) (i1.congr (by abel)) (by simp [hm]) g2 hr1 ts1 h2 e2
    exact .slot (seq_of hI (by simp [hm])) g1 (d1.bind (d2.bind (.ret _ _)))

theorem eachNamed_does {st : Style} {n : Nat} (ih : DoesAt st n) (lvl : Nat) {s : Nat} {xs : List Nat} : ∀ (zs : List Entry) (i : Nat) (h : Heap) (R : Blocks), (∀ z ∈ zs, Entry.Ok st lvl z) → (∀ z ∈ zs, z.1.Valid) → (∀ z ∈ zs, z.1.depth ≤ n) →
    Is h (blocksL (zs.map Prod.fst) + R) → (s, .seq xs) ∈ R → xs.drop i = (zs.map Prod.fst).map HT.root → ∀ (ts : List (Bytes × Bytes)) (h' : Heap), writeEachNamed (writeN st n lvl) h ((zs.map Prod.fst).map HT.root) = some (ts, h') →
      Does h (eachNamedP (writeP st n lvl) s zs.length i) ts h' := by
  intro zs
  induction zs with
  | nil =>
    intro i h R _ _ _ _ _ _ ts h' he
    simp only [List.map_nil, writeEachNamed, Option.some.injEq, Prod.mk.injEq] at he
    obtain ⟨rfl, rfl⟩ := he
    exact .ret _ _
  | cons z zs ihl =>
    intro i h R ho hv hd hI hm hx ts h' he
    simp only [List.map_cons, blocksL, add_assoc] at hI
    simp only [List.map_cons] at hx
    obtain ⟨g1, g2⟩ := getElem?_drop_cons hx
    have hz := ho z (by simp)
    obtain ⟨h1, t1, e1, i1, _, _, _, v1, _⟩ := writeN_ok st n z.1 lvl h _ z.2.2.1 z.2.2.2 (hv z (by simp)) (hd z (by simp)) hI hz.2
    have hname := nameOf_ok (hI.has sub_left) hz.1
    simp only [List.map_cons, writeEachNamed, hname, e1, Option.bind_eq_bind, Option.bind_some, Option.bind_eq_some_iff, Option.some.injEq, Prod.mk.injEq] at he
    obtain ⟨⟨ts1, h2⟩, e2, rfl, rfl⟩ := he
    have d1 := ih z.1 lvl h _ z.2.2.1 z.2.2.2 (hv z (by simp)) (hd z (by simp)) hI hz.2 _ _ e1
    have d2 := ihl (i + 1) h1 (t1.blocks + R) (fun z hz => ho z (by simp [hz])) (fun z hz => hv z (by simp [hz])) (fun z hz => hd z (by simp [hz])) (i1.congr (by abel)) (by simp [hm]) g2 ts1 h2 e2
    exact .slot (seq_of hI (by simp [hm])) g1 ((nameP_does hname).bind (d1.bind (d2.bind (.ret _ _))))

theorem writeP_does (st : Style) : ∀ n, DoesAt st n := by
  intro n
  induction n with
  | zero => intro t lvl h R text e' _ hd; cases t <;> simp [HT.depth] at hd
  | succ n ih =>
    intro t lvl h R text e' hv hd hI hw x h' he
    have hg := (hI.has (m' := t.blocks) sub_left).elem
    simp only [writeN, hg, Option.bind_eq_bind, Option.bind_some] at he
    refine .cell (elem_cell hg) (by simp) ?_
    cases t with
    | prim a nm t p b =>
      simp only [HT.body, Option.map_eq_some_iff, Prod.mk.injEq] at he
      obtain ⟨c, hc, rfl, rfl⟩ := he
      exact (textP_does hc).bind (.ret _ _)
    | cont a nm t s ks =>
      simp only [HT.Valid] at hv
      simp only [HT.depth] at hd
      rw [cont_focus] at hI
      cases t with
      | array =>
        simp only [HT.elem, writeG, Option.bind_eq_some_iff, Option.some.injEq, Prod.mk.injEq] at hw
        obtain ⟨r, hr, rfl, rfl⟩ := hw
        simp only [HT.body, getSeq_ok hI, Option.bind_some, Option.bind_eq_some_iff, Option.some.injEq, Prod.mk.injEq] at he
        obtain ⟨⟨ts, h1⟩, e1, rfl, rfl⟩ := he
        have d := each_does ih (lvl + 1) (s := s) ks 0 h ((s, .seq (ks.map HT.root)) ::ₘ ((a, .elem (nm.map (·.1)) (.cont .array s)) ::ₘ (strBlock nm + R))) r hv (by omega)
          (hI.congr (by simp only [Multiset.add_cons])) (by simp) rfl hr ts h1 e1
        refine .len (getSeq_ok hI) ?_
        rw [List.length_map]
        exact d.bind (.ret _ _)
      | object =>
        simp only [HT.elem, writeG, Option.bind_eq_some_iff, Option.some.injEq, Prod.mk.injEq] at hw
        obtain ⟨r, hr, r', hr', rfl, rfl⟩ := hw
        obtain ⟨zs, rfl, rfl, ho⟩ := entries_of st (lvl + 1) ks r hr
        obtain ⟨h1, zs', e1, hp, rfl, i1, n1⟩ := sortChildren_ok st (lvl + 1) zs ho r' hr' hI
        have hsub : ∀ z ∈ zs', z ∈ zs := fun z hz => hp.mem_iff.mp hz
        simp only [HT.body, e1, getSeq_ok i1, Option.bind_some, Option.bind_eq_some_iff, Option.some.injEq, Prod.mk.injEq] at he
        obtain ⟨⟨ts, h2⟩, e2, rfl, rfl⟩ := he
        have d := eachNamed_does ih (lvl + 1) (s := s) zs' 0 h1 ((s, .seq ((zs'.map Prod.fst).map HT.root)) ::ₘ ((a, .elem (nm.map (·.1)) (.cont .object s)) ::ₘ (strBlock nm + R)))
          (fun z hz => ho z (hsub z hz)) (fun z hz => (validL_iff _).mp hv _ (List.mem_map_of_mem (hsub z hz))) (fun z hz => depthL_le.mp (show depthL _ ≤ n by omega) _ (List.mem_map_of_mem (hsub z hz)))
          (i1.congr (by simp only [Multiset.add_cons])) (by simp) rfl ts h2 e2
        refine (sortP_does e1).bind (.len (getSeq_ok i1) ?_)
        rw [List.length_map, List.length_map]
        exact d.bind (.ret _ _)

end JsonHeap
