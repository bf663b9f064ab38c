import Verif.Lemmas.RBPtrPut
/-! # Lemmas: `RemoveFix_` on the heap does what it does on the zipper -/
namespace RBPtr
open RB (T Frame up plug)

variable {P : Type} {root nil np : Nat} {h0 : Heap P} {S : List Nat} {h : Heap P}

theorem addr_plug (ctx : List (Frame (Nat × P))) (hc : ctx ≠ []) : ∀ t t' : T (Nat × P), addr nil (plug t ctx) = addr nil (plug t' ctx) := by
  induction ctx with
  | nil => exact absurd rfl hc
  | cons f fs ih =>
    intro t t'
    cases fs with
    | nil => simp [plug, addr_up]
    | cons g gs => exact ih (by simp) _ _

theorem addr_plug_mem (ctx : List (Frame (Nat × P))) (hc : ctx ≠ []) : ∀ t : T (Nat × P), addr nil (plug t ctx) ∈ addrsC ctx := by
  induction ctx with
  | nil => exact absurd rfl hc
  | cons f fs ih =>
    intro t
    cases fs with
    | nil => simp [plug, addr_up, addrsC]
    | cons g gs =>
      have := ih (by simp) (up t f)
      simp only [plug, addrsC] at this ⊢
      simp only [List.mem_cons, List.mem_append] at this ⊢
      rcases this with h | h | h <;> simp [h]

/-- Lines 507-513 when the right nephew is black: the left one is red. -/
theorem Z.nephewL {x l1 r1 wr : T (Nat × P)} {fc wc : Bool} {fp wp p1 : Nat × P} {rest : List (Frame (Nat × P))}
    (k : Z root nil np h0 S h x (⟨true, fc, fp, .node wc (.node true l1 p1 r1) wp wr⟩ :: rest)) (hx : x = .nil → np = fp.1)
    (hw : wr.isRed = false) :
    ∃ h', nephewL nil h (addr nil x) wp.1 = some (h', p1.1) ∧
      Z root nil np h0 S h' x (⟨true, fc, fp, .node false l1 p1 (.node true r1 wp wr)⟩ :: rest) := by
  have k1 : Z root nil np h0 S h (.node wc (.node true l1 p1 r1) wp wr) _ := k.toSib
  have e1 := k1.readR
  have e2 := (Z.goDown (f := ⟨false, wc, wp, .node true l1 p1 r1⟩) (t := wr) k1).readRed
  rw [hw] at e2
  have e3 := k1.readL
  simp only [addr] at e3
  obtain ⟨h1, s1, k2⟩ := (Z.goDown (f := ⟨true, wc, wp, wr⟩) (t := .node true l1 p1 r1) k1).paint false
  obtain ⟨h2, s2, k3⟩ := k2.paintParent true
  obtain ⟨h3, s3, k4⟩ := Z.rotR (show Z root nil np h0 S h2 (.node true (.node false l1 p1 r1) wp wr) _ from k3.goUp)
  have k5 := k4.ofSib
  have e4 := k5.readParent hx
  have e5 := k5.readPR
  simp only [pa] at e4
  simp only [addr, if_true] at e5
  exact ⟨h3, by simp [RBPtr.nephewL, e1, e2, e3, s1, s2, s3, e4, e5], k5⟩

/-- Lines 539-545 when the left nephew is black. -/
theorem Z.nephewR {x l1 r1 wl : T (Nat × P)} {fc wc : Bool} {fp wp p1 : Nat × P} {rest : List (Frame (Nat × P))}
    (k : Z root nil np h0 S h x (⟨false, fc, fp, .node wc wl wp (.node true l1 p1 r1)⟩ :: rest)) (hx : x = .nil → np = fp.1)
    (hw : wl.isRed = false) :
    ∃ h', nephewR nil h (addr nil x) wp.1 = some (h', p1.1) ∧
      Z root nil np h0 S h' x (⟨false, fc, fp, .node false (.node true wl wp l1) p1 r1⟩ :: rest) := by
  have k1 : Z root nil np h0 S h (.node wc wl wp (.node true l1 p1 r1)) _ := k.toSib
  have e1 := k1.readL
  have e2 := (Z.goDown (f := ⟨true, wc, wp, .node true l1 p1 r1⟩) (t := wl) k1).readRed
  rw [hw] at e2
  have e3 := k1.readR
  simp only [addr] at e3
  obtain ⟨h1, s1, k2⟩ := (Z.goDown (f := ⟨false, wc, wp, wl⟩) (t := .node true l1 p1 r1) k1).paint false
  obtain ⟨h2, s2, k3⟩ := k2.paintParent true
  obtain ⟨h3, s3, k4⟩ := Z.rotL (show Z root nil np h0 S h2 (.node true wl wp (.node false l1 p1 r1)) _ from k3.goUp)
  have k5 := k4.ofSib
  have e4 := k5.readParent hx
  have e5 := k5.readPL
  simp only [pa] at e4
  simp only [addr, Bool.false_eq_true, if_false] at e5
  exact ⟨h3, by simp [RBPtr.nephewR, e1, e2, e3, s1, s2, s3, e4, e5], k5⟩

/-- Lines 514-517. -/
theorem Z.lastL {x wl wr : T (Nat × P)} {fc wc : Bool} {fp wp : Nat × P} {rest : List (Frame (Nat × P))}
    (k : Z root nil np h0 S h x (⟨true, fc, fp, .node wc wl wp wr⟩ :: rest)) (hx : x = .nil → np = fp.1) :
    ∃ h', lastL nil h (addr nil x) wp.1 = some h' ∧
      Z root nil np h0 S h' (.node fc (.node false x fp wl) wp wr.blacken) rest := by
  have e1 := k.readParent hx
  have e2 := k.readPRed
  obtain ⟨h1, s1, k1⟩ := Z.paint (show Z root nil np h0 S h (.node wc wl wp wr) _ from k.toSib) fc
  have k1' := k1.ofSib
  have e3 := k1'.readParent hx
  obtain ⟨h2, s2, k2⟩ := k1'.paintParent false
  have k3 : Z root nil np h0 S h2 (.node fc wl wp wr) _ := k2.toSib
  have e4 := k3.readR
  obtain ⟨h3, s3, k4⟩ := (Z.goDown (f := ⟨false, fc, wp, wl⟩) (t := wr) k3).blacken
  have k5 := Z.ofSib (show Z root nil np h0 S h3 (.node fc wl wp wr.blacken) _ from k4.goUp)
  have e5 := k5.readParent hx
  obtain ⟨h4, s4, k6⟩ := Z.rotL (show Z root nil np h0 S h3 (.node false x fp (.node fc wl wp wr.blacken)) _ from k5.goUp)
  simp only [pa] at e1 e3 e5
  exact ⟨h4, by simp [RBPtr.lastL, e1, e2, s1, e3, s2, e4, s3, e5, s4], k6⟩

/-- Lines 547-550. -/
theorem Z.lastR {x wl wr : T (Nat × P)} {fc wc : Bool} {fp wp : Nat × P} {rest : List (Frame (Nat × P))}
    (k : Z root nil np h0 S h x (⟨false, fc, fp, .node wc wl wp wr⟩ :: rest)) (hx : x = .nil → np = fp.1) :
    ∃ h', lastR nil h (addr nil x) wp.1 = some h' ∧
      Z root nil np h0 S h' (.node fc wl.blacken wp (.node false wr fp x)) rest := by
  have e1 := k.readParent hx
  have e2 := k.readPRed
  obtain ⟨h1, s1, k1⟩ := Z.paint (show Z root nil np h0 S h (.node wc wl wp wr) _ from k.toSib) fc
  have k1' := k1.ofSib
  have e3 := k1'.readParent hx
  obtain ⟨h2, s2, k2⟩ := k1'.paintParent false
  have k3 : Z root nil np h0 S h2 (.node fc wl wp wr) _ := k2.toSib
  have e4 := k3.readL
  obtain ⟨h3, s3, k4⟩ := (Z.goDown (f := ⟨true, fc, wp, wr⟩) (t := wl) k3).blacken
  have k5 := Z.ofSib (show Z root nil np h0 S h3 (.node fc wl.blacken wp wr) _ from k4.goUp)
  have e5 := k5.readParent hx
  obtain ⟨h4, s4, k6⟩ := Z.rotR (show Z root nil np h0 S h3 (.node false (.node fc wl.blacken wp wr) fp x) _ from k5.goUp)
  simp only [pa] at e1 e3 e5
  exact ⟨h4, by simp [RBPtr.lastR, e1, e2, s1, e3, s2, e4, s3, e5, s4], k6⟩

theorem Z.bothBlack {wl wr : T (Nat × P)} {wc : Bool} {wp : Nat × P} {ctx : List (Frame (Nat × P))}
    (k : Z root nil np h0 S h (.node wc wl wp wr) ctx) : bothBlack h wp.1 = some (!wl.isRed && !wr.isRed) := by
  have e1 := k.readL
  have e2 := k.readR
  have e3 := (Z.goDown (f := ⟨true, wc, wp, wr⟩) (t := wl) k).readRed
  have e4 := (Z.goDown (f := ⟨false, wc, wp, wl⟩) (t := wr) k).readRed
  simp [RBPtr.bothBlack, e1, e2, e3, e4]

/-- How one round of the loop may end: the loop goes on at the parent, or `x` is the old root and the loop ends. -/
def Round (root nil np : Nat) (h0 : Heap P) (S : List Nat) (loop : T (Nat × P) → List (Frame (Nat × P)) → Bool → Option (T (Nat × P)))
    (res : Option (Heap P × Nat)) (pr : Bool) (rest : List (Frame (Nat × P))) (top fa : Nat) (t' : T (Nat × P)) : Prop :=
  (∃ h' x', res = some (h', addr nil x') ∧ Z root nil np h0 S h' x' rest ∧ x' ≠ .nil ∧ addr nil x' = fa ∧ loop x' rest pr = some t') ∨
  (∃ h' h'', res = some (h', top) ∧ setRed h' top false = some h'' ∧ Z root nil np h0 S h'' t' [])

/-- Line 556 at the old root. -/
theorem finishTop {t1 : T (Nat × P)} {rest : List (Frame (Nat × P))} {top : Nat} (k : Z root nil np h0 S h t1 rest)
    (ht : addr nil (plug t1 rest) = top) : ∃ h', setRed h top false = some h' ∧ Z root nil np h0 S h' (plug t1 rest).blacken [] := by
  obtain ⟨h', s, k'⟩ := k.goTop.blacken
  rw [ht] at s
  exact ⟨h', s, k'⟩

theorem fixL_spec {loop : T (Nat × P) → List (Frame (Nat × P)) → Bool → Option (T (Nat × P))} {x wl wr t' : T (Nat × P)}
    {fc wc : Bool} {fp wp : Nat × P} {rest : List (Frame (Nat × P))} {pr : Bool} {top : Nat}
    (k : Z root nil np h0 S h x (⟨true, fc, fp, .node wc wl wp wr⟩ :: rest)) (hx : x = .nil → np = fp.1)
    (ht : pr = true → top = fp.1) (ht' : pr = false → ∀ t, addr nil (plug t rest) = top)
    (hr : RB.fixLeft loop x ⟨true, fc, fp, .node wc wl wp wr⟩ rest pr = some t') :
    Round root nil np h0 S loop (fixL nil top h (addr nil x) wp.1) pr rest top fp.1 t' := by
  have kw : Z root nil np h0 S h (.node wc wl wp wr) _ := k.toSib
  have e1 := kw.bothBlack
  by_cases hb : (!wl.isRed && !wr.isRed) = true
  · left
    rw [hb] at e1
    obtain ⟨h1, s1, k1⟩ := kw.paint true
    have k2 := k1.ofSib
    have e2 := k2.readParent hx
    simp only [pa] at e2
    refine ⟨h1, _, ?_, k2.goUp, by simp [up], by simp [addr_up], ?_⟩
    · simp [fixL, e1, s1, e2, addr_up]
    · simpa [RB.fixLeft, hb] using hr
  · right
    rw [Bool.eq_false_iff.mpr hb] at e1
    -- the state before the last rotation
    have step : ∃ h1 wl2 wp2 wr2 wc2, nephewL nil h (addr nil x) wp.1 = some (h1, wp2.1) ∧
        Z root nil np h0 S h1 x (⟨true, fc, fp, .node wc2 wl2 wp2 wr2⟩ :: rest) ∧
        (if !wr.isRed then RB.rotateRight (.node true wl.blacken wp wr) else some (.node wc wl wp wr)) = some (.node wc2 wl2 wp2 wr2) := by
      cases hw : wr.isRed
      · have hl : wl.isRed = true := by simpa [hw] using hb
        rcases wl with _ | ⟨c1, l1, p1, r1⟩
        · simp [T.isRed] at hl
        · simp only [T.isRed] at hl
          subst hl
          obtain ⟨h1, s1, k1⟩ := k.nephewL hx hw
          exact ⟨h1, _, _, _, _, s1, k1, rfl⟩
      · have e2 := kw.readR
        have e3 := (Z.goDown (f := ⟨false, wc, wp, wl⟩) (t := wr) kw).readRed
        rw [hw] at e3
        exact ⟨h, _, _, _, _, by simp [nephewL, e2, e3], k, by simp⟩
    obtain ⟨h1, wl2, wp2, wr2, wc2, s1, k1, e2⟩ := step
    obtain ⟨h2, s2, k2⟩ := k1.lastL hx
    have ex : fixL nil top h (addr nil x) wp.1 = some (h2, top) := by simp [fixL, e1, s1, s2]
    simp only [RB.fixLeft, hb, if_false, e2] at hr
    simp only [up, if_true, RB.rotateLeft, Bool.false_eq_true, if_false] at hr
    cases pr
    · simp only [Bool.false_eq_true, if_false, Option.some.injEq] at hr
      obtain ⟨h3, s3, k3⟩ := finishTop k2 (ht' rfl _)
      exact ⟨h2, h3, ex, s3, hr ▸ k3⟩
    · simp only [if_true, Option.some.injEq] at hr
      obtain ⟨h3, s3, k3⟩ := (Z.goDown (f := ⟨true, fc, wp2, wr2.blacken⟩) (t := .node false x fp wl2) k2).paint false
      rw [ht rfl]
      have := k3.goTop
      simp only [plug, up, if_true] at this
      rw [ht rfl] at ex
      exact ⟨h2, h3, ex, s3, hr ▸ this⟩

theorem fixR_spec {loop : T (Nat × P) → List (Frame (Nat × P)) → Bool → Option (T (Nat × P))} {x wl wr t' : T (Nat × P)}
    {fc wc : Bool} {fp wp : Nat × P} {rest : List (Frame (Nat × P))} {pr : Bool} {top : Nat}
    (k : Z root nil np h0 S h x (⟨false, fc, fp, .node wc wl wp wr⟩ :: rest)) (hx : x = .nil → np = fp.1)
    (ht : pr = true → top = fp.1) (ht' : pr = false → ∀ t, addr nil (plug t rest) = top)
    (hr : RB.fixRight loop x ⟨false, fc, fp, .node wc wl wp wr⟩ rest pr = some t') :
    Round root nil np h0 S loop (fixR nil top h (addr nil x) wp.1) pr rest top fp.1 t' := by
  have kw : Z root nil np h0 S h (.node wc wl wp wr) _ := k.toSib
  have e1 := kw.bothBlack
  by_cases hb : (!wl.isRed && !wr.isRed) = true
  · left
    rw [hb] at e1
    obtain ⟨h1, s1, k1⟩ := kw.paint true
    have k2 := k1.ofSib
    have e2 := k2.readParent hx
    simp only [pa] at e2
    refine ⟨h1, _, ?_, k2.goUp, by simp [up], by simp [addr_up], ?_⟩
    · simp [fixR, e1, s1, e2, addr_up]
    · simpa [RB.fixRight, hb] using hr
  · right
    rw [Bool.eq_false_iff.mpr hb] at e1
    have step : ∃ h1 wl2 wp2 wr2 wc2, nephewR nil h (addr nil x) wp.1 = some (h1, wp2.1) ∧
        Z root nil np h0 S h1 x (⟨false, fc, fp, .node wc2 wl2 wp2 wr2⟩ :: rest) ∧
        (if !wl.isRed then RB.rotateLeft (.node true wl wp wr.blacken) else some (.node wc wl wp wr)) = some (.node wc2 wl2 wp2 wr2) := by
      cases hw : wl.isRed
      · have hl : wr.isRed = true := by simpa [hw] using hb
        rcases wr with _ | ⟨c1, l1, p1, r1⟩
        · simp [T.isRed] at hl
        · simp only [T.isRed] at hl
          subst hl
          obtain ⟨h1, s1, k1⟩ := k.nephewR hx hw
          exact ⟨h1, _, _, _, _, s1, k1, rfl⟩
      · have e2 := kw.readL
        have e3 := (Z.goDown (f := ⟨true, wc, wp, wr⟩) (t := wl) kw).readRed
        rw [hw] at e3
        exact ⟨h, _, _, _, _, by simp [nephewR, e2, e3], k, by simp⟩
    obtain ⟨h1, wl2, wp2, wr2, wc2, s1, k1, e2⟩ := step
    obtain ⟨h2, s2, k2⟩ := k1.lastR hx
    have ex : fixR nil top h (addr nil x) wp.1 = some (h2, top) := by simp [fixR, e1, s1, s2]
    simp only [RB.fixRight, hb, if_false, e2] at hr
    simp only [up, RB.rotateRight, Bool.false_eq_true, if_false] at hr
    cases pr
    · simp only [Bool.false_eq_true, if_false, Option.some.injEq] at hr
      obtain ⟨h3, s3, k3⟩ := finishTop k2 (ht' rfl _)
      exact ⟨h2, h3, ex, s3, hr ▸ k3⟩
    · simp only [if_true, Option.some.injEq] at hr
      obtain ⟨h3, s3, k3⟩ := (Z.goDown (f := ⟨false, fc, wp2, wl2.blacken⟩) (t := .node false wr2 fp x) k2).paint false
      rw [ht rfl]
      have := k3.goTop
      simp only [plug, up, Bool.false_eq_true, if_false] at this
      rw [ht rfl] at ex
      exact ⟨h2, h3, ex, s3, hr ▸ this⟩

/-- Lines 492-498: the red sibling is rotated away. -/
theorem Z.sibRedL {x wl wr : T (Nat × P)} {fc : Bool} {fp wp : Nat × P} {rest : List (Frame (Nat × P))}
    (k : Z root nil np h0 S h x (⟨true, fc, fp, .node true wl wp wr⟩ :: rest)) (hx : x = .nil → np = fp.1) :
    ∃ h', sibL nil h (addr nil x) wp.1 = some (h', addr nil wl) ∧
      Z root nil np h0 S h' x (⟨true, true, fp, wl⟩ :: ⟨true, false, wp, wr⟩ :: rest) := by
  have kw : Z root nil np h0 S h (.node true wl wp wr) _ := k.toSib
  have e1 := kw.readRed
  simp only [addr, T.isRed] at e1
  obtain ⟨h1, s1, k1⟩ := kw.paint false
  have k2 := k1.ofSib
  have e2 := k2.readParent hx
  obtain ⟨h2, s2, k3⟩ := k2.paintParent true
  have e3 := k3.readParent hx
  obtain ⟨h3, s3, k4⟩ := Z.rotL (show Z root nil np h0 S h2 (.node true x fp (.node false wl wp wr)) _ from k3.goUp)
  have k5 : Z root nil np h0 S h3 (.node true x fp wl) (⟨true, false, wp, wr⟩ :: rest) := Z.goDown (f := ⟨true, false, wp, wr⟩) k4
  have k6 : Z root nil np h0 S h3 x (⟨true, true, fp, wl⟩ :: _) := Z.goDown (f := ⟨true, true, fp, wl⟩) k5
  have e4 := k6.readParent hx
  have e5 := k6.readPR
  simp only [pa] at e2 e3 e4
  exact ⟨h3, by simp [sibL, e1, s1, e2, s2, e3, s3, e4, e5], k6⟩

/-- Lines 524-530. -/
theorem Z.sibRedR {x wl wr : T (Nat × P)} {fc : Bool} {fp wp : Nat × P} {rest : List (Frame (Nat × P))}
    (k : Z root nil np h0 S h x (⟨false, fc, fp, .node true wl wp wr⟩ :: rest)) (hx : x = .nil → np = fp.1) :
    ∃ h', sibR nil h (addr nil x) wp.1 = some (h', addr nil wr) ∧
      Z root nil np h0 S h' x (⟨false, true, fp, wr⟩ :: ⟨false, false, wp, wl⟩ :: rest) := by
  have kw : Z root nil np h0 S h (.node true wl wp wr) _ := k.toSib
  have e1 := kw.readRed
  simp only [addr, T.isRed] at e1
  obtain ⟨h1, s1, k1⟩ := kw.paint false
  have k2 := k1.ofSib
  have e2 := k2.readParent hx
  obtain ⟨h2, s2, k3⟩ := k2.paintParent true
  have e3 := k3.readParent hx
  obtain ⟨h3, s3, k4⟩ := Z.rotR (show Z root nil np h0 S h2 (.node true (.node false wl wp wr) fp x) _ from k3.goUp)
  have k5 : Z root nil np h0 S h3 (.node true wr fp x) (⟨false, false, wp, wl⟩ :: rest) := Z.goDown (f := ⟨false, false, wp, wl⟩) k4
  have k6 : Z root nil np h0 S h3 x (⟨false, true, fp, wr⟩ :: _) := Z.goDown (f := ⟨false, true, fp, wr⟩) k5
  have e4 := k6.readParent hx
  have e5 := k6.readPL
  simp only [pa] at e2 e3 e4
  exact ⟨h3, by simp [sibR, e1, s1, e2, s2, e3, s3, e4, e5], k6⟩

theorem Z.black {w : T (Nat × P)} {ctx : List (Frame (Nat × P))} (k : Z root nil np h0 S h w ctx) (hw : w.isRed = false) (x : Nat) :
    sibL nil h x (addr nil w) = some (h, addr nil w) ∧ sibR nil h x (addr nil w) = some (h, addr nil w) := by
  have e := k.readRed
  rw [hw] at e
  simp [sibL, sibR, e]

/-- One round of the loop. -/
theorem removeBody_spec {fuel : Nat} {x t' : T (Nat × P)} {f : Frame (Nat × P)} {rest : List (Frame (Nat × P))} {top : Nat}
    (k : Z root nil np h0 S h x (f :: rest)) (hx : x = .nil → np = f.pay.1) (hred : x.isRed = false)
    (ht : top = addr nil (plug x (f :: rest))) (hr : RB.removeFix (fuel + 1) x (f :: rest) false = some t') :
    ∃ rest', Round root nil np h0 S (RB.removeFix fuel) (removeBody nil top h (addr nil x)) rest.isEmpty rest' top f.pay.1 t' ∧
      (rest.isEmpty = true → top = f.pay.1) ∧ (rest.isEmpty = false → ∀ t, addr nil (plug t rest') = top) := by
  have tt : rest.isEmpty = true → top = f.pay.1 := by
    intro he
    cases rest with
    | nil => rw [ht]; simp [plug, addr_up]
    | cons g gs => simp at he
  have tf : rest.isEmpty = false → ∀ t, addr nil (plug t rest) = top := by
    intro he t
    rw [ht]
    exact addr_plug rest (by cases rest <;> simp at he ⊢) _ _
  have e1 := k.readParent hx
  have e2 := k.readPL
  have e3 := k.readPR
  simp only [pa] at e1
  unfold RB.removeFix at hr
  simp only [hred, Bool.or_self, Bool.false_eq_true, if_false] at hr
  obtain ⟨fl, fc, fp, fs⟩ := f
  cases hs : fs.isRed
  · refine ⟨rest, ?_, tt, tf⟩
    simp only [hs, Bool.false_eq_true, if_false] at hr
    rcases fs with _ | ⟨wc, wl, wp, wr⟩
    · cases fl <;> simp [RB.fixLeft, RB.fixRight] at hr
    have kb := (k.toSib).black hs (addr nil x)
    have nes := k.ne_sib (Or.inr (by simp))
    cases fl
    · simp only [Bool.false_eq_true, if_false] at hr e2
      have := fixR_spec k hx tt tf hr
      have ex : removeBody nil top h (addr nil x) = fixR nil top h (addr nil x) wp.1 := by
        have sb : sibR nil h (addr nil x) wp.1 = some (h, wp.1) := kb.2
        have nes' : addr nil x ≠ wp.1 := nes
        have e2' : getL h fp.1 = some wp.1 := e2
        simp [removeBody, e1, e2', sb, nes']
      rw [ex]; exact this
    · simp only [if_true] at hr e2 e3
      have := fixL_spec k hx tt tf hr
      have ex : removeBody nil top h (addr nil x) = fixL nil top h (addr nil x) wp.1 := by
        have sb : sibL nil h (addr nil x) wp.1 = some (h, wp.1) := kb.1
        have e3' : getR h fp.1 = some wp.1 := e3
        simp [removeBody, e1, e2, e3', sb]
      rw [ex]; exact this
  · rcases fs with _ | ⟨wc, wl, wp, wr⟩
    · simp [T.isRed] at hs
    have hs' : wc = true := hs
    subst hs'
    have nes := k.ne_sib (Or.inr (by simp))
    cases fl
    · refine ⟨⟨false, false, wp, wl⟩ :: rest, ?_, tt, ?_⟩
      · simp only [T.isRed, if_true, Bool.false_eq_true, if_false, up, T.blacken, RB.rotateRight] at hr e2
        obtain ⟨h1, s1, k1⟩ := k.sibRedR hx
        rcases wr with _ | ⟨wc2, wl2, wp2, wr2⟩
        · simp [RB.fixRight] at hr
        · have tf' : rest.isEmpty = false → ∀ t, addr nil (plug t (⟨false, false, wp, wl⟩ :: rest)) = top := fun he t => tf he _
          have := fixR_spec k1 hx tt tf' hr
          have ex : removeBody nil top h (addr nil x) = fixR nil top h1 (addr nil x) wp2.1 := by
            have nes' : addr nil x ≠ wp.1 := nes
            have e2' : getL h fp.1 = some wp.1 := e2
            have s1' : sibR nil h (addr nil x) wp.1 = some (h1, wp2.1) := s1
            simp [removeBody, e1, e2', nes', s1']
          rw [ex]; exact this
      · intro he t; exact tf he _
    · refine ⟨⟨true, false, wp, wr⟩ :: rest, ?_, tt, ?_⟩
      · simp only [T.isRed, if_true, up, T.blacken, RB.rotateLeft] at hr e2 e3
        obtain ⟨h1, s1, k1⟩ := k.sibRedL hx
        rcases wl with _ | ⟨wc2, wl2, wp2, wr2⟩
        · simp [RB.fixLeft] at hr
        · have tf' : rest.isEmpty = false → ∀ t, addr nil (plug t (⟨true, false, wp, wr⟩ :: rest)) = top := fun he t => tf he _
          have := fixL_spec k1 hx tt tf' hr
          have ex : removeBody nil top h (addr nil x) = fixL nil top h1 (addr nil x) wp2.1 := by
            have e3' : getR h fp.1 = some wp.1 := e3
            have s1' : sibL nil h (addr nil x) wp.1 = some (h1, wp2.1) := s1
            simp [removeBody, e1, e2, e3', s1']
          rw [ex]; exact this
      · intro he t; exact tf he _

/-- The loop of `RemoveFix_`. -/
theorem removeLoop_sim (top : Nat) (fuel : Nat) : ∀ {h : Heap P} {x t' : T (Nat × P)} {ctx : List (Frame (Nat × P))} {b : Bool},
    Z root nil np h0 S h x ctx → (x = .nil → np = pa root ctx) → (b = true ↔ addr nil x = top) →
    (b = false → x.isRed = false → addr nil (plug x ctx) = top) → RB.removeFix fuel x ctx b = some t' → ∀ n, fuel + 1 ≤ n →
    ∃ h', removeLoop nil top n h (addr nil x) = some h' ∧ Z root nil np h0 S h' t' [] := by
  induction fuel with
  | zero => intro h x t' ctx b _ _ _ _ hr; simp [RB.removeFix] at hr
  | succ fuel ih =>
    intro h x t' ctx b k hx hb ht hr n hn
    obtain ⟨m, rfl⟩ : ∃ m, n = m + 2 := ⟨n - 2, by omega⟩
    have er := k.readRed
    by_cases hs : (b || x.isRed) = true
    · have hr' : plug x.blacken ctx = t' := by
        unfold RB.removeFix at hr
        simpa [hs] using hr
      obtain ⟨h', s, k'⟩ := k.blacken
      refine ⟨h', ?_, hr' ▸ k'.goTop⟩
      have : addr nil x = top ∨ x.isRed = true := by
        cases hbb : b
        · right; simpa [hbb] using hs
        · left; exact hb.mp hbb
      simp [removeLoop, er, this, s]
    · have hbf : b = false := by cases b <;> simp_all
      have hrf : x.isRed = false := by cases hh : x.isRed <;> simp_all
      have hnt : addr nil x ≠ top := fun e => by simp [hb.mpr e] at hbf
      cases ctx with
      | nil => unfold RB.removeFix at hr; simp [hbf, hrf] at hr
      | cons f rest =>
        subst hbf
        have htop := ht rfl hrf
        obtain ⟨rest', hround, tt, tf⟩ := removeBody_spec k hx hrf htop.symm hr
        have hnt' : ¬ (addr nil x = top ∨ x.isRed = true) := by simp [hnt, hrf]
        rcases hround with ⟨h1, x1, s1, k1, hx1, ha1, hr1⟩ | ⟨h1, h2, s1, s2, k2⟩
        · have hiff : rest.isEmpty = true ↔ addr nil x1 = top := by
            constructor
            · intro he; rw [ha1, tt he]
            · intro he
              cases hre : rest.isEmpty
              · exfalso
                have hre' : rest ≠ [] := by cases rest <;> simp at hre ⊢
                have m1 := addr_plug_mem (nil := nil) rest hre' (up x f)
                have : addr nil (plug (up x f) rest) = f.pay.1 := by
                  rw [← ha1, he]; exact htop
                rw [this] at m1
                have nd := k.nd
                simp only [addrsC, List.nodup_cons, List.mem_cons, List.mem_append, not_or, List.nodup_append] at nd
                exact nd.2.2.2.1.1.2 m1
              · rfl
          obtain ⟨h', s', k'⟩ := ih k1 (fun e => absurd e hx1) hiff (fun he _ => tf he _) hr1 (m + 1) (by omega)
          refine ⟨h', ?_, k'⟩
          rw [removeLoop]
          simp [er, hnt', s1, s']
        · refine ⟨h2, ?_, k2⟩
          rw [removeLoop]
          simp only [er, Option.bind_eq_bind, Option.bind_some, hnt', if_false, s1]
          rw [removeLoop]
          have : ∃ c, getRed h1 top = some c := by
            simp only [setRed] at s2
            by_cases ha : h1.alive top = true
            · exact ⟨h1.red top, by simp [getRed, ha]⟩
            · simp [ha] at s2
          obtain ⟨c, hc⟩ := this
          simp [hc, s2]

end RBPtr
