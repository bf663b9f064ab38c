import Verif.Model.RBVerify
import Verif.Props.RBTree
/-! # C156: the tree's own checks, and its default comparison -/
namespace RB
open RBSpec
open MapSpec (Op lookup)
open SeqSpec (TotalPreorder)

theorem verifyNode_not_none {P : Type} (t : T P) : ∀ b path, verifyNode t b path ≠ some none := by
  induction t with
  | nil => intro b path; cases path <;> simp [verifyNode]
  | node red l p r ihl ihr =>
    intro b path
    rw [verifyNode]
    split
    · simp
    · cases h : verifyNode l (if red = true then b else b + 1) path with
      | none => simp
      | some q => rw [Option.bind_some]; exact ihr _ _

theorem verifyNode_iff {P : Type} (t : T P) : ∀ b path n, verifyNode t b path = some (some n) ↔ NoRedRed t ∧ (∀ c ∈ blackCounts t, c + b + 1 = n) ∧ (path = none ∨ path = some n) := by
  induction t with
  | nil =>
    intro b path n
    cases path with
    | none => simp [verifyNode, NoRedRed, blackCounts]
    | some m =>
      simp only [verifyNode, NoRedRed, blackCounts, List.mem_singleton, forall_eq, true_and, Option.ite_none_right_eq_some, Option.some.injEq]
      constructor
      · rintro ⟨h, rfl⟩; exact ⟨by omega, .inr rfl⟩
      · rintro ⟨h, h2⟩; rcases h2 with h2 | h2
        · cases h2
        · exact ⟨by omega, h2⟩
  | node red l p r ihl ihr =>
    intro b path n
    rw [verifyNode]
    by_cases hr : red = true ∧ (l.isRed = true ∨ r.isRed = true)
    · rw [if_pos hr]
      constructor
      · intro h; cases h
      · rintro ⟨⟨h, -⟩, -⟩
        obtain ⟨h1, h2⟩ := h hr.1
        rcases hr.2 with h3 | h3
        · rw [h1] at h3; cases h3
        · rw [h2] at h3; cases h3
    · rw [if_neg hr]
      have hred : red = true → l.isRed = false ∧ r.isRed = false := by
        intro h
        constructor
        · cases hl : l.isRed
          · rfl
          · exact absurd ⟨h, .inl hl⟩ hr
        · cases hl : r.isRed
          · rfl
          · exact absurd ⟨h, .inr hl⟩ hr
      have hcnt : (∀ c ∈ blackCounts (.node red l p r), c + b + 1 = n) ↔
          (∀ c ∈ blackCounts l, c + (if red = true then b else b + 1) + 1 = n) ∧ (∀ c ∈ blackCounts r, c + (if red = true then b else b + 1) + 1 = n) := by
        simp only [blackCounts, List.mem_map, List.mem_append, forall_exists_index, and_imp, forall_apply_eq_imp_iff₂]
        constructor
        · intro h
          exact ⟨fun c hc => by have := h c (.inl hc); cases red <;> simp at this ⊢ <;> omega, fun c hc => by have := h c (.inr hc); cases red <;> simp at this ⊢ <;> omega⟩
        · rintro ⟨h1, h2⟩ c (hc | hc)
          · have := h1 c hc; cases red <;> simp at this ⊢ <;> omega
          · have := h2 c hc; cases red <;> simp at this ⊢ <;> omega
      rw [hcnt]
      constructor
      · intro h
        cases hl : verifyNode l (if red = true then b else b + 1) path with
        | none => rw [hl] at h; cases h
        | some q =>
          rw [hl, Option.bind_some] at h
          cases q with
          | none => exact absurd hl (verifyNode_not_none l _ _)
          | some m =>
            obtain ⟨a1, a2, a3⟩ := (ihr _ _ _).1 h
            have hm : m = n := by rcases a3 with a3 | a3; cases a3; exact Option.some.inj a3
            subst hm
            obtain ⟨b1, b2, b3⟩ := (ihl _ _ _).1 hl
            exact ⟨⟨hred, b1, a1⟩, ⟨b2, a2⟩, b3⟩
      · rintro ⟨⟨-, h1, h2⟩, ⟨h3, h4⟩, h5⟩
        rw [(ihl _ _ _).2 ⟨h1, h3, h5⟩, Option.bind_some]
        exact (ihr _ _ _).2 ⟨h2, h4, .inr rfl⟩

/-- **C156.** The check finds every violation and nothing else: it passes exactly if no red node has a red child and all paths have the same number of black nodes. -/
theorem C156_verify_is_the_red_black_rule {K V : Type} (t : Tree K V) :
    verifyTree t = true ↔ NoRedRed t.root ∧ ∃ n, ∀ c ∈ blackCounts t.root, c = n := by
  rw [verifyTree, Option.isSome_iff_exists]
  constructor
  · rintro ⟨q, h⟩
    cases q with
    | none => exact absurd h (verifyNode_not_none _ _ _)
    | some n =>
      obtain ⟨h1, h2, -⟩ := (verifyNode_iff _ _ _ _).1 h
      exact ⟨h1, n - 1, fun c hc => by have := h2 c hc; omega⟩
  · rintro ⟨h1, n, h2⟩
    exact ⟨some (n + 1), (verifyNode_iff _ _ _ _).2 ⟨h1, fun c hc => by have := h2 c hc; omega, .inl rfl⟩⟩

/-- **C156.** The assertions never fail: neither on a tree after any history, nor on any copy of it. -/
theorem C156_verify_passes {K V : Type} (cmp : K → K → Int) (hc : TotalPreorder cmp) (h : List (Op K V)) :
    ∃ t d, RBSpec.runImpl cmp h = some (t, d) ∧ verifyTree t = true ∧ ∀ filter t', RB.copy cmp filter t = some t' → verifyTree t' = true := by
  obtain ⟨t, d, e, H⟩ := run_spec hc h
  have key : ∀ t : Tree K V, Good cmp t → verifyTree t = true := by
    intro t g
    obtain ⟨n, hok⟩ := g.ok
    have h1 := ok_isRedBlack t.root n hok
    exact (C156_verify_is_the_red_black_rule t).2 ⟨h1.1, n, h1.2⟩
  refine ⟨t, d, e, key t H.good, fun filter t' he => ?_⟩
  by_cases hroot : t.root = .nil
  · rw [RB.copy, hroot] at he; cases he
  · obtain ⟨t2, e2, g2, -⟩ := copy_spec hc H.good filter hroot
    rw [e2] at he; cases he
    exact key _ g2

/-- Two reds in a row, and unequal paths, are found. -/
example : verifyTree (⟨.node false (.node true (.node true .nil (1, ()) .nil) (2, ()) .nil) (3, ()) .nil, 3⟩ : Tree Nat Unit) = false ∧
    verifyTree (⟨.node false (.node false .nil (2, ()) .nil) (3, ()) .nil, 2⟩ : Tree Nat Unit) = false ∧
    verifyTree (⟨.node false (.node true .nil (2, ()) .nil) (3, ()) .nil, 2⟩ : Tree Nat Unit) = true := by decide

theorem pointerCompare_near {a b : Nat} (h1 : a < b + 2147483648) (h2 : b ≤ a + 2147483648) : pointerCompare a b = (a : Int) - b := by
  unfold pointerCompare
  rw [BitVec.toInt_ofInt]
  rw [Int.bmod_eq_of_le] <;> omega

/-- **C156.** A tree made without a comparison orders by address, as long as all keys lie in one region of 2^31 bytes: then the theorems about trees (C10 to C13, C57, C58) hold for it, and two keys are
the same exactly if they are the same pointer. -/
theorem C156_default_comparison (lo : Nat) :
    let cmp := fun a b : { a : Nat // lo ≤ a ∧ a < lo + 2147483648 } => pointerCompare a.1 b.1
    TotalPreorder cmp ∧ ∀ a b, cmp a b = 0 ↔ a = b := by
  intro cmp
  have e : ∀ a b, cmp a b = (a.1 : Int) - b.1 := fun a b => pointerCompare_near (by have := a.2; have := b.2; omega) (by have := a.2; have := b.2; omega)
  refine ⟨⟨fun a => by rw [e]; omega, fun a b => by rw [e, e]; omega, fun a b c => by rw [e, e, e]; omega⟩, fun a b => ?_⟩
  rw [e]
  constructor
  · intro h; exact Subtype.ext (by omega)
  · rintro rfl; omega

/-- **C156** (negation of "keys are told apart"): addresses further apart are not. Two keys 4 GiB apart are the same key, so the second put replaces the first, and three keys can be in a circle. -/
theorem C156_default_comparison_negated :
    (∃ a b, a ≠ b ∧ pointerCompare a b = 0 ∧ ((runImpl pointerCompare [.insert b 2, .insert a 1]).map fun x => (x.1.size, get pointerCompare x.1 a)) = some (1, some 2)) ∧
    (∃ a b c, pointerCompare a b < 0 ∧ pointerCompare b c < 0 ∧ pointerCompare c a < 0) :=
  ⟨⟨94906265624576, 94910560591872, by decide, by decide +kernel, by decide +kernel⟩, ⟨0, 1610612736, 3221225472, by decide +kernel, by decide +kernel, by decide +kernel⟩⟩

end RB
