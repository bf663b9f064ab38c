import Verif.Lemmas.JsonWriteAlone
import Verif.Props.JsonHeap
/-! # Threads with memory of their own -/
namespace JsonHeap
open Json

/-! ## A part of memory -/

/-- A part of memory, with the same idea of what is new. -/
structure Part (g H : Heap) : Prop where
  cell : ∀ a c, g.cell a = some c → H.cell a = some c
  next : g.next = H.next

theorem Part.seq {g H : Heap} (hp : Part g H) {s : Nat} {xs : List Nat} (hs : getSeq g s = some xs) : getSeq H s = some xs := by
  simp only [getSeq] at hs ⊢
  split at hs
  · rename_i ys hz; rw [hp.cell _ _ hz]; exact hs
  · cases hs

/-- What a step does on a part of memory it does on all of it, and nothing elsewhere. -/
theorem step_frame {α : Type} {g g1 H : Heap} {p p1 : Prog α} (hs : p.step g = some (g1, p1)) (hp : Part g H) :
    ∃ H1, p.step H = some (H1, p1) ∧ Part g1 H1 ∧ (∀ a, g.cell a = none → H1.cell a = H.cell a) ∧ (∀ a, g1.cell a = none ↔ g.cell a = none) ∧ H1.next = H.next := by
  cases p with
  | ret x =>
    simp only [Prog.step, Option.some.injEq, Prod.mk.injEq] at hs
    obtain ⟨rfl, rfl⟩ := hs
    exact ⟨H, rfl, hp, fun _ _ => rfl, fun _ => Iff.rfl, rfl⟩
  | cell x k =>
    simp only [Prog.step] at hs ⊢
    cases hc : g.cell x with
    | none => rw [hc] at hs; cases hs
    | some c =>
      rw [hc] at hs
      rw [hp.cell _ _ hc]
      cases c with
      | seq xs => cases hs
      | str b =>
        simp only [Option.some.injEq, Prod.mk.injEq] at hs
        obtain ⟨rfl, rfl⟩ := hs
        exact ⟨H, rfl, hp, fun _ _ => rfl, fun _ => Iff.rfl, rfl⟩
      | elem n b =>
        simp only [Option.some.injEq, Prod.mk.injEq] at hs
        obtain ⟨rfl, rfl⟩ := hs
        exact ⟨H, rfl, hp, fun _ _ => rfl, fun _ => Iff.rfl, rfl⟩
  | len s k =>
    simp only [Prog.step, Option.map_eq_some_iff, Prod.mk.injEq] at hs
    obtain ⟨xs, h1, rfl, rfl⟩ := hs
    exact ⟨H, by simp only [Prog.step, hp.seq h1, Option.map_some], hp, fun _ _ => rfl, fun _ => Iff.rfl, rfl⟩
  | slot s i k =>
    simp only [Prog.step, Option.map_eq_some_iff, Option.bind_eq_some_iff, Prod.mk.injEq] at hs
    obtain ⟨xs, h1, x, h2, rfl, rfl⟩ := hs
    exact ⟨H, by simp only [Prog.step, hp.seq h1, h2, Option.bind_some, Option.map_some], hp, fun _ _ => rfl, fun _ => Iff.rfl, rfl⟩
  | put s i v k =>
    simp only [Prog.step, Option.bind_eq_some_iff] at hs
    obtain ⟨xs, h1, hs⟩ := hs
    split at hs
    · rename_i hl
      simp only [Option.map_eq_some_iff, Prod.mk.injEq, store] at hs
      obtain ⟨h2, ⟨c, hc, rfl⟩, rfl, rfl⟩ := hs
      have hc' := hp.cell _ _ hc
      refine ⟨⟨fun x => if x = s then some (.seq (xs.set i v)) else H.cell x, H.next⟩, ?_, ⟨fun a d hd => ?_, hp.next⟩, fun a ha => ?_, fun a => ?_, rfl⟩
      · simp only [Prog.step, hp.seq h1, Option.bind_some, hl, if_true, store, hc', Option.map_some]
      · simp only at hd ⊢
        split
        · rename_i e; rw [if_pos e] at hd; exact hd
        · rename_i e; rw [if_neg e] at hd; exact hp.cell _ _ hd
      · simp only
        rw [if_neg]
        rintro rfl
        rw [hc] at ha; cases ha
      · simp only
        split
        · rename_i e; subst e; rw [hc]; simp
        · exact Iff.rfl
    · cases hs
  | fail => cases hs

theorem Ends.pred {α : Type} {h h' : Heap} {p : Prog α} {a : α} {n : Nat} (he : Ends h p a h' n) : ∃ h1 p1, p.step h = some (h1, p1) ∧ Ends h1 p1 a h' (n - 1) := by
  cases he with
  | ret => exact ⟨h, .ret a, rfl, .ret h a⟩
  | step hs he => exact ⟨_, _, hs, he⟩

theorem Ends.zero {α : Type} {h h' : Heap} {p : Prog α} {a : α} {n : Nat} (he : Ends h p a h' n) (hn : n = 0) : p = .ret a ∧ h' = h := by
  cases he with
  | ret => exact ⟨rfl, rfl⟩
  | step => omega

theorem Ends.of_ret {α : Type} {h h' : Heap} {p : Prog α} {a b : α} {n : Nat} (he : Ends h p a h' n) (hp : p = .ret b) : b = a ∧ h' = h := by
  induction he with
  | ret h a => cases hp; exact ⟨rfl, rfl⟩
  | step hs _ ih =>
    subst hp
    simp only [Prog.step, Option.some.injEq, Prod.mk.injEq] at hs
    obtain ⟨rfl, rfl⟩ := hs
    exact ih rfl

/-- A program alone has one end. -/
theorem Ends.unique {α : Type} {h h1 h2 : Heap} {p : Prog α} {a b : α} {n m : Nat} (ha : Ends h p a h1 n) (hb : Ends h p b h2 m) : a = b ∧ h1 = h2 := by
  induction ha generalizing m with
  | ret h a =>
    obtain ⟨rfl, rfl⟩ := hb.of_ret rfl
    exact ⟨rfl, rfl⟩
  | step hs ha ih =>
    cases hb with
    | ret => 
      simp only [Prog.step, Option.some.injEq, Prod.mk.injEq] at hs
      obtain ⟨rfl, rfl⟩ := hs
      exact ih (.ret _ _)
    | step hs' hb =>
      rw [hs] at hs'
      simp only [Option.some.injEq, Prod.mk.injEq] at hs'
      obtain ⟨rfl, rfl⟩ := hs'
      exact ih hb

theorem Ends.frame {α : Type} {g F : Heap} {p : Prog α} {a : α} {n : Nat} (he : Ends g p a F n) : ∀ {H : Heap}, Part g H → ∃ H', Ends H p a H' n ∧ Part F H' ∧ (∀ x, g.cell x = none → H'.cell x = H.cell x) ∧ H'.next = H.next := by
  induction he with
  | ret h a => intro H hp; exact ⟨H, .ret _ _, hp, fun _ _ => rfl, rfl⟩
  | step hs _ ih =>
    intro H hp
    obtain ⟨H1, e1, p1, f1, d1, n1⟩ := step_frame hs hp
    obtain ⟨H2, e2, p2, f2, n2⟩ := ih p1
    exact ⟨H2, .step e1 e2, p2, fun x hx => (f2 x ((d1 x).mpr hx)).trans (f1 x hx), n2.trans n1⟩

theorem Ends.dom {α : Type} {g F : Heap} {p : Prog α} {a : α} {n : Nat} (he : Ends g p a F n) : ∀ x, F.cell x = none ↔ g.cell x = none := by
  induction he with
  | ret h a => intro x; exact Iff.rfl
  | step hs _ ih =>
    intro x
    obtain ⟨_, _, _, _, d1, _⟩ := step_frame hs ⟨fun _ _ h => h, rfl⟩
    exact (ih x).trans (d1 x)

/-! ## Threads with parts of memory -/

/-- A thread: its part of memory now, its program, its result, its part at the end, its steps, and whether it leaves memory as it is. -/
structure Th where
  g : Heap
  p : Prog Bytes
  r : Bytes
  F : Heap
  n : Nat
  shared : Bool

def Th.Ok (x : Th) : Prop := Ends x.g x.p x.r x.F x.n ∧ (x.shared = true → Quiet x.g x.p x.r x.n)

/-- Two threads whose parts have nothing in common, or which both leave memory as it is. -/
def Th.Apart (x y : Th) : Prop := (∀ a, x.g.cell a = none ∨ y.g.cell a = none) ∨ (x.shared = true ∧ y.shared = true)

def AllApart (ths : List Th) : Prop := ∀ (i j : Nat) (x y : Th), i ≠ j → ths[i]? = some x → ths[j]? = some y → x.Apart y

theorem Th.Ok.step {x : Th} (hx : x.Ok) : ∃ g1 p1, x.p.step x.g = some (g1, p1) ∧ Th.Ok { x with g := g1, p := p1, n := x.n - 1 } ∧ (x.shared = true → g1 = x.g) := by
  obtain ⟨g1, p1, e, he⟩ := hx.1.pred
  refine ⟨g1, p1, e, ⟨he, fun hs => ?_⟩, fun hs => ?_⟩
  · obtain ⟨p', e', q⟩ := (hx.2 hs).step
    rw [e] at e'
    simp only [Option.some.injEq, Prod.mk.injEq] at e'
    obtain ⟨rfl, rfl⟩ := e'
    exact q
  · obtain ⟨p', e', q⟩ := (hx.2 hs).step
    rw [e] at e'
    simp only [Option.some.injEq, Prod.mk.injEq] at e'
    exact e'.1

/-- What memory is when all have ended. -/
structure AtEnd (H : Heap) (ths : List Th) (H' : Heap) : Prop where
  part : ∀ x ∈ ths, Part x.F H'
  rest : ∀ a, (∀ x ∈ ths, x.g.cell a = none) → H'.cell a = H.cell a
  next : H'.next = H.next

theorem AtEnd.unique {H H1 H2 : Heap} {ths : List Th} (ho : ∀ x ∈ ths, x.Ok) (h1 : AtEnd H ths H1) (h2 : AtEnd H ths H2) : H1 = H2 := by
  have hc : H1.cell = H2.cell := by
    funext a
    by_cases ha : ∀ x ∈ ths, x.g.cell a = none
    · rw [h1.rest a ha, h2.rest a ha]
    · push Not at ha
      obtain ⟨x, hx, hg⟩ := ha
      have hF : x.F.cell a ≠ none := fun hn => hg (((ho x hx).1.dom a).mp hn)
      obtain ⟨c, hc⟩ := Option.ne_none_iff_exists'.mp hF
      rw [(h1.part x hx).cell a c hc, (h2.part x hx).cell a c hc]
  cases H1; cases H2
  simp only [Heap.mk.injEq]
  exact ⟨hc, h1.next.trans h2.next.symm⟩

/-- Threads with parts of memory of their own, or which leave what they share as it is, run as if each were alone. -/
theorem runApart : ∀ (sched : List Nat) (H : Heap) (ths : List Th), (∀ x ∈ ths, x.Ok) → (∀ x ∈ ths, Part x.g H) → AllApart ths →
    ∃ (H' : Heap) (ths' : List Th), runThreads sched H (ths.map Th.p) = some (H', ths'.map Th.p) ∧ ths'.length = ths.length ∧ H'.next = H.next ∧ (∀ a, (∀ x ∈ ths, x.g.cell a = none) → H'.cell a = H.cell a) ∧
      ∀ (i : Nat) (x x' : Th), ths[i]? = some x → ths'[i]? = some x' → x'.r = x.r ∧ x'.F = x.F ∧ x'.n = x.n - sched.count i ∧ x'.Ok ∧ Part x'.g H' := by
  intro sched
  induction sched with
  | nil =>
    intro H ths ho hp _
    refine ⟨H, ths, rfl, rfl, rfl, fun _ _ => rfl, fun i x x' hx hx' => ?_⟩
    rw [hx] at hx'
    cases hx'
    exact ⟨rfl, rfl, by simp, ho x (List.mem_of_getElem? hx), hp x (List.mem_of_getElem? hx)⟩
  | cons j sched ih =>
    intro H ths ho hp ha
    cases hj : ths[j]? with
    | none =>
      obtain ⟨H', ths', e, hl, hn, hr, hi⟩ := ih H ths ho hp ha
      refine ⟨H', ths', by simp only [runThreads, List.getElem?_map, hj, Option.map_none, e], hl, hn, hr, fun i x x' hx hx' => ?_⟩
      have hij : j ≠ i := by rintro rfl; rw [hj] at hx; cases hx
      rw [List.count_cons_of_ne hij]
      exact hi i x x' hx hx'
    | some y =>
      have hjl : j < ths.length := (List.getElem?_eq_some_iff.mp hj).1
      have hym := List.mem_of_getElem? hj
      obtain ⟨g1, p1, e1, ho1, hs1⟩ := (ho y hym).step
      obtain ⟨H1, f1, q1, r1, d1, n1⟩ := step_frame e1 (hp y hym)
      have hset : ∀ (i : Nat) (x : Th), (ths.set j { y with g := g1, p := p1, n := y.n - 1 })[i]? = some x → (i = j ∧ x = { y with g := g1, p := p1, n := y.n - 1 }) ∨ (i ≠ j ∧ ths[i]? = some x) := by
        intro i x hx
        by_cases e : i = j
        · subst e
          rw [List.getElem?_set_self hjl] at hx
          exact .inl ⟨rfl, (Option.some.inj hx).symm⟩
        · rw [List.getElem?_set_ne (Ne.symm e)] at hx
          exact .inr ⟨e, hx⟩
      -- the step leaves the parts of the others as they are
      have hother : ∀ (i : Nat) (x : Th), i ≠ j → ths[i]? = some x → Part x.g H1 := by
        intro i x hij hx
        have hpx := hp x (List.mem_of_getElem? hx)
        refine ⟨fun a c hc => ?_, hpx.next.trans n1.symm⟩
        rcases ha i j x y hij hx hj with hd | ⟨_, hsh⟩
        · rcases hd a with h0 | h0
          · rw [hc] at h0; cases h0
          · rw [r1 a h0]; exact hpx.cell a c hc
        · have hg := hs1 hsh
          cases hy : y.g.cell a with
          | none => rw [r1 a hy]; exact hpx.cell a c hc
          | some d =>
            have h2 := (hp y hym).cell a d hy
            rw [hpx.cell a c hc] at h2
            cases h2
            exact q1.cell a c (by rw [hg]; exact hy)
      have hall : ∀ x ∈ ths.set j { y with g := g1, p := p1, n := y.n - 1 }, x.Ok ∧ Part x.g H1 := by
        intro x hx
        obtain ⟨i, hi⟩ := List.getElem?_of_mem hx
        rcases hset i x hi with ⟨rfl, rfl⟩ | ⟨hij, hi⟩
        · exact ⟨ho1, q1⟩
        · exact ⟨ho x (List.mem_of_getElem? hi), hother i x hij hi⟩
      obtain ⟨H', ths', e, hl, hn, hr, hi⟩ := ih H1 (ths.set j { y with g := g1, p := p1, n := y.n - 1 }) (fun x hx => (hall x hx).1) (fun x hx => (hall x hx).2) (by
        intro i k x z hik hx hz
        rcases hset i x hx with ⟨h1, rfl⟩ | ⟨h1, hx1⟩
        · rcases hset k z hz with ⟨h2, rfl⟩ | ⟨h2, hz1⟩
          · exact absurd (h1.trans h2.symm) hik
          · rcases ha j k y z (Ne.symm h2) hj hz1 with hd | hd
            · exact .inl fun a => (hd a).imp_left (d1 a).mpr
            · exact .inr hd
        · rcases hset k z hz with ⟨h2, rfl⟩ | ⟨h2, hz1⟩
          · rcases ha i j x y h1 hx1 hj with hd | hd
            · exact .inl fun a => (hd a).imp_right (d1 a).mpr
            · exact .inr hd
          · exact ha i k x z hik hx1 hz1)
      refine ⟨H', ths', ?_, by simpa using hl, hn.trans n1, fun a hA => ?_, fun i x x' hx hx' => ?_⟩
      · simp only [runThreads, List.getElem?_map, hj, Option.map_some, f1, Option.bind_some, ← e, List.map_set]
      · rw [hr a ?_]
        · exact r1 a (hA y hym)
        · intro x hx
          obtain ⟨i, hi⟩ := List.getElem?_of_mem hx
          rcases hset i x hi with ⟨rfl, rfl⟩ | ⟨hij, hi⟩
          · exact (d1 a).mpr (hA y hym)
          · exact hA x (List.mem_of_getElem? hi)
      · by_cases hij : j = i
        · subst hij
          rw [hj] at hx
          cases hx
          obtain ⟨a1, a2, a3, a4⟩ := hi j _ x' (by rw [List.getElem?_set, if_pos rfl, if_pos hjl]) hx'
          refine ⟨a1, a2, ?_, a4⟩
          rw [a3, List.count_cons_self]
          simp only
          omega
        · rw [List.count_cons_of_ne hij]
          exact hi i x x' (by rw [List.getElem?_set, if_neg hij]; exact hx) hx'

/-- When each has had its steps, memory is what it is at the end. -/
theorem runApart_end {sched : List Nat} {H : Heap} {ths : List Th} (ho : ∀ x ∈ ths, x.Ok) (hp : ∀ x ∈ ths, Part x.g H) (ha : AllApart ths) :
    ∃ (H' : Heap) (ps : List (Prog Bytes)), runThreads sched H (ths.map Th.p) = some (H', ps) ∧ (∀ (i : Nat) (x : Th), ths[i]? = some x → (x.n ≤ sched.count i → ps[i]? = some (.ret x.r)) ∧ ∀ t, ps[i]? = some (.ret t) → t = x.r) ∧
      ((∀ (i : Nat) (x : Th), ths[i]? = some x → x.n ≤ sched.count i) → AtEnd H ths H') := by
  obtain ⟨H', ths', e, hl, hn, hr, hi⟩ := runApart sched H ths ho hp ha
  have hat : ∀ (i : Nat) (x : Th), ths[i]? = some x → ∃ x', ths'[i]? = some x' := by
    intro i x hx
    have := (List.getElem?_eq_some_iff.mp hx).1
    exact ⟨ths'[i]'(by omega), by simp⟩
  refine ⟨H', ths'.map Th.p, e, fun i x hx => ?_, fun hall => ⟨fun x hx => ?_, hr, hn⟩⟩
  · obtain ⟨x', hx'⟩ := hat i x hx
    obtain ⟨a1, a2, a3, a4, _⟩ := hi i x x' hx hx'
    refine ⟨fun hc => ?_, fun t ht => ?_⟩
    · rw [List.getElem?_map, hx', Option.map_some, (a4.1.zero (by omega)).1, a1]
    · rw [List.getElem?_map, hx', Option.map_some, Option.some.injEq] at ht
      exact (a4.1.of_ret ht).1.trans a1
  · obtain ⟨i, hx⟩ := List.getElem?_of_mem hx
    obtain ⟨x', hx'⟩ := hat i x hx
    obtain ⟨a1, a2, a3, a4, a5⟩ := hi i x x' hx hx'
    have := hall i x hx
    rw [← a2, (a4.1.zero (by omega)).2]
    exact a5

end JsonHeap
