import Verif.Model.RBTree
/-! # Lemmas: the balancing code does not look at payloads -/
namespace RB

variable {P Q : Type}

/-- Renaming payloads. -/
def T.map (g : P → Q) : T P → T Q
  | .nil => .nil
  | .node c l p r => .node c (l.map g) (g p) (r.map g)

/-- Renaming payloads of a frame. -/
def Frame.map (g : P → Q) (f : Frame P) : Frame Q := ⟨f.left, f.red, g f.pay, f.sib.map g⟩

@[simp] theorem isRed_map (g : P → Q) (t : T P) : (t.map g).isRed = t.isRed := by cases t <;> rfl

@[simp] theorem blacken_map (g : P → Q) (t : T P) : (t.map g).blacken = t.blacken.map g := by cases t <;> rfl

theorem bk_nil : (T.nil : T P).blacken = .nil := rfl
theorem bk_node (c : Bool) (l r : T P) (p : P) : (T.node c l p r).blacken = .node false l p r := rfl

theorem up_map (g : P → Q) (t : T P) (f : Frame P) : up (t.map g) (f.map g) = (up t f).map g := by
  obtain ⟨lf, c, p, s⟩ := f
  cases lf <;> rfl

theorem plug_map (g : P → Q) (ctx : List (Frame P)) : ∀ t : T P, plug (t.map g) (ctx.map (Frame.map g)) = (plug t ctx).map g := by
  induction ctx with
  | nil => intro t; rfl
  | cons f fs ih => intro t; simp only [List.map_cons, plug, up_map, ih]

theorem putFix_map (g : P → Q) (fuel : Nat) : ∀ (t : T P) (ctx : List (Frame P)),
    putFix fuel (t.map g) (ctx.map (Frame.map g)) = (putFix fuel t ctx).map (T.map g) := by
  induction fuel with
  | zero => intro t ctx; simp [putFix]
  | succ fuel ih =>
    intro t ctx
    cases ctx with
    | nil => simp [putFix, plug]
    | cons f ctx =>
      obtain ⟨fl, fr, fp, fs⟩ := f
      cases fr
      · have := plug_map g (⟨fl, false, fp, fs⟩ :: ctx) t
        simp only [List.map_cons] at this
        simp [putFix, Frame.map] at this ⊢
        rw [← blacken_map, ← this]
      · cases ctx with
        | nil => simp [putFix, Frame.map]
        | cons gf rest =>
          obtain ⟨gl, gr, gp, gs⟩ := gf
          cases gl <;> cases hy : gs.isRed <;> cases fl <;> cases t with
          | nil => ?_
          | node c l p r => ?_
          all_goals
            simp only [List.map_cons, putFix, Frame.map, if_true, isRed_map, hy, Bool.false_eq_true, if_false, Bool.not_true, Bool.not_false, up, T.map, rotateLeft, rotateRight, Option.map_none, blacken_map, List.map_map]
          all_goals
            try rw [← ih]
            try rfl

theorem fixLeft_map (g : P → Q) {loop : T P → List (Frame P) → Bool → Option (T P)} {loop' : T Q → List (Frame Q) → Bool → Option (T Q)}
    (hl : ∀ x ctx b, loop' (x.map g) (ctx.map (Frame.map g)) b = (loop x ctx b).map (T.map g)) (x : T P) (f : Frame P)
    (rest : List (Frame P)) (b : Bool) :
    fixLeft loop' (x.map g) (f.map g) (rest.map (Frame.map g)) b = (fixLeft loop x f rest b).map (T.map g) := by
  obtain ⟨fl, fr, fp, fs⟩ := f
  cases fs with
  | nil => simp [fixLeft, Frame.map, T.map]
  | node wc wl wp wr =>
    cases hw1 : wl.isRed <;> cases hw2 : wr.isRed
    · simp only [fixLeft, Frame.map, T.map, isRed_map, hw1, hw2]
      rw [show ({ left := fl, red := fr, pay := g fp, sib := .node true (wl.map g) (g wp) (wr.map g) } : Frame Q) =
        Frame.map g ⟨fl, fr, fp, .node true wl wp wr⟩ from rfl, up_map]
      simp [hl]
    all_goals
      rcases wl with _ | ⟨c1, l1, p1, r1⟩ <;> rcases wr with _ | ⟨c2, l2, p2, r2⟩ <;> cases fl <;> cases b <;> cases x <;>
        simp_all [fixLeft, Frame.map, T.map, T.isRed, rotateRight, rotateLeft, up, bk_nil, bk_node, ← plug_map, ← blacken_map]

theorem fixRight_map (g : P → Q) {loop : T P → List (Frame P) → Bool → Option (T P)} {loop' : T Q → List (Frame Q) → Bool → Option (T Q)}
    (hl : ∀ x ctx b, loop' (x.map g) (ctx.map (Frame.map g)) b = (loop x ctx b).map (T.map g)) (x : T P) (f : Frame P)
    (rest : List (Frame P)) (b : Bool) :
    fixRight loop' (x.map g) (f.map g) (rest.map (Frame.map g)) b = (fixRight loop x f rest b).map (T.map g) := by
  obtain ⟨fl, fr, fp, fs⟩ := f
  cases fs with
  | nil => simp [fixRight, Frame.map, T.map]
  | node wc wl wp wr =>
    cases hw1 : wl.isRed <;> cases hw2 : wr.isRed
    · simp only [fixRight, Frame.map, T.map, isRed_map, hw1, hw2]
      rw [show ({ left := fl, red := fr, pay := g fp, sib := .node true (wl.map g) (g wp) (wr.map g) } : Frame Q) =
        Frame.map g ⟨fl, fr, fp, .node true wl wp wr⟩ from rfl, up_map]
      simp [hl]
    all_goals
      rcases wl with _ | ⟨c1, l1, p1, r1⟩ <;> rcases wr with _ | ⟨c2, l2, p2, r2⟩ <;> cases fl <;> cases b <;> cases x <;>
        simp_all [fixRight, Frame.map, T.map, T.isRed, rotateRight, rotateLeft, up, bk_nil, bk_node, ← plug_map, ← blacken_map]


theorem removeFix_map (g : P → Q) (fuel : Nat) : ∀ (x : T P) (ctx : List (Frame P)) (b : Bool),
    removeFix fuel (x.map g) (ctx.map (Frame.map g)) b = (removeFix fuel x ctx b).map (T.map g) := by
  induction fuel with
  | zero => intro x ctx b; simp [removeFix]
  | succ fuel ih =>
    intro x ctx b
    unfold removeFix
    rw [isRed_map]
    by_cases hb : (b || x.isRed) = true
    · simp only [hb, if_true, blacken_map, plug_map, Option.map_some]
    · simp only [hb, if_false]
      cases ctx with
      | nil => rfl
      | cons f rest =>
        have em : (rest.map (Frame.map g)).isEmpty = rest.isEmpty := by cases rest <;> rfl
        simp only [List.map_cons, em]
        cases hs : f.sib.isRed
        · have hs' : (f.map g).sib.isRed = false := by simp [Frame.map, hs]
          cases hl : f.left
          · have hl' : (f.map g).left = false := by simp [Frame.map, hl]
            simp only [hs', hl', Bool.false_eq_true, if_false]
            exact fixRight_map g ih _ _ _ _
          · have hl' : (f.map g).left = true := by simp [Frame.map, hl]
            simp only [hs', hl', Bool.false_eq_true, if_false, if_true]
            exact fixLeft_map g ih _ _ _ _
        · obtain ⟨fl, fr, fp, fs⟩ := f
          rcases fs with _ | ⟨wc, wl, wp, wr⟩
          · simp [T.isRed] at hs
          · cases fl
            · simp only [Frame.map, T.map, T.isRed] at hs ⊢
              simp only [hs, up, bk_node, if_true, Bool.false_eq_true, if_false, rotateRight]
              exact fixRight_map g ih x ⟨false, true, fp, wr⟩ (⟨false, false, wp, wl⟩ :: rest) _
            · simp only [Frame.map, T.map, T.isRed] at hs ⊢
              simp only [hs, up, bk_node, if_true, rotateLeft]
              exact fixLeft_map g ih x ⟨true, true, fp, wl⟩ (⟨true, false, wp, wr⟩ :: rest) _

end RB
