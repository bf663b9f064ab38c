import Verif.Lemmas.ListMut
/-! # Lists without a copy function are never shared -/
namespace CList

/-- No reference counter counts more than one list. -/
def AllAlone {V : Type} (s : St V) : Prop := ∀ r rc, s.rcs r = some rc → rc.userCount ≤ 1

theorem detach_alone {V : Type} (c : Cfg V) {s s' : St V} {l : Nat} (h : AllAlone s) (hd : ListDetach c s l = some s') : s' = s := by
  simp only [ListDetach, Option.bind_eq_bind, Option.bind_eq_some_iff] at hd
  obtain ⟨L, _, rc, hr, hd⟩ := hd
  have := h _ _ hr
  rw [if_neg (by simp [RefCountIsShared]; omega)] at hd
  exact (Option.some.inj hd).symm

theorem detach_same {V : Type} (c : Cfg V) {s : St V} {l : Nat} (h : AllAlone s) (b : Bool) : ListDetach { c with copy := b } s l = ListDetach c s l := by
  simp only [ListDetach]
  cases hl : s.lists l with
  | none => rfl
  | some L =>
    simp only [Option.bind_eq_bind, Option.bind_some]
    cases hr : s.rcs L.refCount with
    | none => rfl
    | some rc =>
      have := h _ _ hr
      have hs : RefCountIsShared rc = false := by simp [RefCountIsShared]; omega
      simp [hs]

theorem find_copy {V : Type} (c : Cfg V) (b : Bool) (h : Queue.Heap Pay) (pays : Pays V) (key : Nat) : ∀ (n : Nat) (a : Option Nat),
    ListFindNode { c with copy := b } h pays key n a = ListFindNode c h pays key n a := by
  intro n
  induction n with
  | zero => intro a; rfl
  | succ n ih =>
    intro a
    cases a with
    | none => rfl
    | some a =>
      simp only [ListFindNode, ih]
      rfl

theorem findAgain_copy {V : Type} (c : Cfg V) (b : Bool) (h : Queue.Heap Pay) (pays : Pays V) (key : Nat) : ∀ (n : Nat) (a : Option Nat),
    findAgain { c with copy := b } h pays key n a = findAgain c h pays key n a := by
  intro n
  induction n with
  | zero => intro a; rfl
  | succ n ih =>
    intro a
    cases a with
    | none => rfl
    | some a =>
      simp only [findAgain, ih]
      rfl

theorem destroyLoop_copy {V : Type} (c : Cfg V) (b : Bool) : ∀ (n : Nat) (h : Queue.Heap Pay) (pays : Pays V) (a : Option Nat),
    destroyLoop { c with copy := b } n h pays a = destroyLoop c n h pays a := by
  intro n
  induction n with
  | zero => intro h pays a; rfl
  | succ n ih =>
    intro h pays a
    cases a with
    | none => rfl
    | some a =>
      simp only [destroyLoop, ih]
      rfl

theorem append_copy {V : Type} (c : Cfg V) {s : St V} {l : Nat} (p : Pay) (h : AllAlone s) (b : Bool) :
    ListAppend { c with copy := b } s l p = ListAppend c s l p := by
  simp only [ListAppend, detach_same c h b]

theorem prepend_copy {V : Type} (c : Cfg V) {s : St V} {l : Nat} (p : Pay) (h : AllAlone s) (b : Bool) :
    ListPrepend { c with copy := b } s l p = ListPrepend c s l p := by
  simp only [ListPrepend, detach_same c h b]

theorem remove_copy {V : Type} (c : Cfg V) {s : St V} {l : Nat} (k : Nat) (h : AllAlone s) (b : Bool) :
    ListRemove { c with copy := b } s l k = ListRemove c s l k := by
  simp only [ListRemove, detach_same c h b, find_copy, findAgain_copy]
  rfl

theorem destroy_copy {V : Type} (c : Cfg V) {s : St V} {l : Nat} (b : Bool) : ListDestroy { c with copy := b } s l = ListDestroy c s l := by
  simp only [ListDestroy, destroyLoop_copy]

theorem append_alone {V : Type} (c : Cfg V) {s s' : St V} {l : Nat} {p : Pay} (h : AllAlone s) (ha : ListAppend c s l p = some s') : AllAlone s' := by
  simp only [ListAppend, Option.bind_eq_bind, Option.bind_eq_some_iff] at ha
  obtain ⟨s1, h1, L, _, ha⟩ := ha
  have := detach_alone c h h1
  subst this
  split at ha
  · simp only [Option.bind_eq_some_iff] at ha
    obtain ⟨h1, _, h2, _, ha⟩ := ha
    cases ha; exact h
  · cases ha; exact h

theorem prepend_alone {V : Type} (c : Cfg V) {s s' : St V} {l : Nat} {p : Pay} (h : AllAlone s) (ha : ListPrepend c s l p = some s') : AllAlone s' := by
  simp only [ListPrepend, Option.bind_eq_bind, Option.bind_eq_some_iff] at ha
  obtain ⟨s1, h1, L, _, ha⟩ := ha
  have := detach_alone c h h1
  subst this
  split at ha
  · simp only [Option.bind_eq_some_iff] at ha
    obtain ⟨h1, _, h2, _, ha⟩ := ha
    cases ha; exact h
  · cases ha; exact h

theorem remove_alone {V : Type} (c : Cfg V) {s : St V} {r : St V × Int} {l k : Nat} (h : AllAlone s) (ha : ListRemove c s l k = some r) : AllAlone r.1 := by
  simp only [ListRemove, Option.bind_eq_bind, Option.bind_eq_some_iff] at ha
  obtain ⟨L, _, f, _, ha⟩ := ha
  split at ha
  · simp only [Option.bind_eq_some_iff] at ha
    obtain ⟨s1, h1, L1, _, _, _, _, _, _, _, ⟨hh, LL⟩, _, _, _, _, _, ha⟩ := ha
    have := detach_alone c h h1
    subst this
    cases ha; exact h
  · cases ha; exact h

theorem new_alone {V : Type} {s : St V} {r : St V × Nat} (h : AllAlone s) (ha : ListNew s = some r) : AllAlone r.1 := by
  simp only [ListNew, newRefCount, RefCountAttach, RefCountNew, Option.bind_eq_bind, Option.bind_some, Option.some.injEq] at ha
  subst ha
  intro q rc hq
  simp only [St.putList] at hq
  split at hq
  · cases hq; simp
  · exact h _ _ hq

theorem destroy_alone {V : Type} (c : Cfg V) {s s' : St V} {l : Nat} (h : AllAlone s) (ha : ListDestroy c s l = some s') : AllAlone s' := by
  simp only [ListDestroy, Option.bind_eq_bind, Option.bind_eq_some_iff] at ha
  obtain ⟨L, _, rc, hr, ha⟩ := ha
  have := h _ _ hr
  rw [if_neg (by simp [RefCountIsShared]; omega)] at ha
  simp only [Option.bind_eq_some_iff] at ha
  obtain ⟨⟨nodes, pays⟩, _, s1, h1, ha⟩ := ha
  cases ha
  simp only [RefCountDestroy, Option.bind_eq_bind, Option.bind_eq_some_iff] at h1
  obtain ⟨rc', hr', h1⟩ := h1
  split at h1
  · cases h1; exact h
  · have key : ∀ u : Queue.Heap Nat, AllAlone (({ s with nodes, pays, users := u }).putRC L.refCount none) := by
      intro u q rq hq
      simp only [St.putRC] at hq
      split at hq
      · cases hq
      · exact h _ _ hq
    split at h1
    · obtain ⟨u, _, h1⟩ := Option.bind_eq_some_iff.1 h1
      cases h1; exact key u
    · cases h1; exact key s.users

/-- Every call but the copy: with and without a copy function the same, and still nothing shared. -/
theorem exec_alone {V : Type} (c : Cfg V) {s : St V} (h : AllAlone s) (op : ListSpec.Op V) (ho : ∀ l, op ≠ .copy l) :
    exec { c with copy := true } s op = exec c s op ∧ ∀ s' o, exec c s op = some (s', o) → AllAlone s' := by
  cases op with
  | new =>
    refine ⟨rfl, fun s' o he => ?_⟩
    simp only [exec, Option.bind_eq_bind, Option.bind_eq_some_iff] at he
    obtain ⟨r, h1, he⟩ := he
    cases he; exact new_alone h h1
  | copy l => exact absurd rfl (ho l)
  | append l v =>
    have h' : AllAlone { s with pays := (s.pays.alloc v).2 } := h
    refine ⟨by simp only [exec, append_copy c _ h' true], fun s' o he => ?_⟩
    simp only [exec, Option.bind_eq_bind, Option.bind_eq_some_iff] at he
    obtain ⟨r, h1, he⟩ := he
    cases he; exact append_alone c h' h1
  | prepend l v =>
    have h' : AllAlone { s with pays := (s.pays.alloc v).2 } := h
    refine ⟨by simp only [exec, prepend_copy c _ h' true], fun s' o he => ?_⟩
    simp only [exec, Option.bind_eq_bind, Option.bind_eq_some_iff] at he
    obtain ⟨r, h1, he⟩ := he
    cases he; exact prepend_alone c h' h1
  | remove l v =>
    have h' : AllAlone { s with pays := (s.pays.alloc v).2 } := h
    refine ⟨by simp only [exec, remove_copy c _ h' true], fun s' o he => ?_⟩
    simp only [exec, Option.bind_eq_bind, Option.bind_eq_some_iff] at he
    obtain ⟨r, h1, p, h2, he⟩ := he
    cases he; exact remove_alone c h' h1
  | destroy l =>
    refine ⟨by simp only [exec, destroy_copy c true], fun s' o he => ?_⟩
    simp only [exec, Option.bind_eq_bind, Option.bind_eq_some_iff] at he
    obtain ⟨r, h1, he⟩ := he
    cases he; exact destroy_alone c h h1

theorem Tight.withCopy {V : Type} {c : Cfg V} {b : Bool} {s : St V} {g : Nat → Grp V} {k : Option Nat} (h : Tight c s g k) : Tight { c with copy := b } s g k :=
  ⟨h.node, h.user, h.rc, h.pay⟩

theorem Tight.withoutCopy {V : Type} {c : Cfg V} {b : Bool} {s : St V} {g : Nat → Grp V} {k : Option Nat} (h : Tight { c with copy := b } s g k) : Tight c s g k :=
  ⟨h.node, h.user, h.rc, h.pay⟩

theorem execs_alone {V : Type} (c : Cfg V) (hcopy : c.copy = false) (f : V → V → Bool) (hcmp : c.compare = some f) :
    ∀ (ops : List (ListSpec.Op V)) {s : St V} {sp : ListSpec.S V} {g : Nat → Grp V} (_ : Inv s sp g) (_ : AllAlone s) {sp' : ListSpec.S V}
      {os : List ListSpec.Out}, ListSpec.runAlone f sp ops = some (sp', os) → ∃ s' g', execs c s ops = some (s', os) ∧ Inv s' sp' g' ∧
        (Tight c s g none → Tight c s' g' none) := by
  intro ops
  induction ops with
  | nil =>
    intro s sp g inv _ sp' os h
    simp [ListSpec.runAlone] at h
    obtain ⟨rfl, rfl⟩ := h
    exact ⟨s, g, rfl, inv, fun h => h⟩
  | cons op ops ih =>
    intro s sp g inv al sp' os h
    simp only [ListSpec.runAlone] at h
    split at h
    · cases h
    · rename_i sp1 o h1
      split at h
      · cases h
      · rename_i sp2 os2 h2
        cases h
        by_cases hc : ∃ l, op = .copy l
        · obtain ⟨l, rfl⟩ := hc
          simp only [ListSpec.stepAlone, Option.map_eq_some_iff] at h1
          obtain ⟨xs, hx, he⟩ := h1
          cases he
          obtain ⟨L, hl⟩ : ∃ L, s.lists l = some L := by
            cases hh : s.lists l with
            | none => rw [inv.dom l hh] at hx; cases hx
            | some L => exact ⟨L, rfl⟩
          obtain ⟨s2, g2, e2, i2, t2⟩ := ih inv al h2
          exact ⟨s2, g2, by simp [execs, exec, ListCopy, hl, hcopy, e2], i2, t2⟩
        · have h1' : ListSpec.step f sp op = some (sp1, o) := by
            rw [← h1]
            cases op with
            | copy l => exact absurd ⟨l, rfl⟩ hc
            | _ => rfl
          obtain ⟨s1, g1, e1, i1, t1⟩ := inv_exec { c with copy := true } rfl f hcmp inv op h1'
          obtain ⟨a1, a2⟩ := exec_alone c al op (fun l e => hc ⟨l, e⟩)
          rw [a1] at e1
          obtain ⟨s2, g2, e2, i2, t2⟩ := ih i1 (a2 _ _ e1) h2
          exact ⟨s2, g2, by simp [execs, e1, e2], i2, fun h => t2 (t1 h.withCopy).withoutCopy⟩

end CList
