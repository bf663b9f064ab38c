import Verif.Lemmas.RBPtr
/-! # Lemmas: `PutFix_` on the heap does what it does on the zipper -/
namespace RBPtr
open RB (T Frame up plug)

variable {P : Type} {root nil np : Nat} {h0 : Heap P} {S : List Nat} {h : Heap P}

theorem addr_up (t : T (Nat × P)) (f : Frame (Nat × P)) : addr nil (up t f) = f.pay.1 := by
  cases h : f.left <;> simp [up, h, addr]

theorem Z.case1 {z : T (Nat × P)} {f g : Frame (Nat × P)} {rest : List (Frame (Nat × P))}
    (k : Z root nil np h0 S h z (f :: g :: rest)) (hz : z ≠ .nil) :
    ∃ h', putCase1 h (addr nil z) (addr nil g.sib) = some (h', g.pay.1) ∧
      Z root nil np h0 S h' (up (up z { f with red := false }) { g with red := true, sib := g.sib.blacken }) rest := by
  have hn : ∀ q, z = .nil → np = q := fun _ e => absurd e hz
  have e1 := k.readParent (hn _)
  obtain ⟨h1, s1, k1⟩ := k.paintParent false
  have u1 := k1.goUp
  obtain ⟨h2, s2, k2⟩ := u1.toSib.blacken
  have v2 := k2.ofSib
  have e2 := v2.goDown.readParent (hn _)
  have e3 := v2.goDown.readPP
  obtain ⟨h3, s3, k3⟩ := v2.paintParent true
  have e4 := k3.goDown.readParent (hn _)
  have e5 := k3.goDown.readPP
  simp only [pa] at e1 e2 e3 e4 e5
  exact ⟨h3, by simp [putCase1, e1, s1, s2, e2, e3, s3, e4, e5], k3.goUp⟩

/-- Case 3, the parent and the grandparent being on the left. -/
theorem Z.case3L {z s s' : T (Nat × P)} {c c' : Bool} {p q : Nat × P} {rest : List (Frame (Nat × P))}
    (k : Z root nil np h0 S h z (⟨true, c, p, s⟩ :: ⟨true, c', q, s'⟩ :: rest)) (hz : z ≠ .nil) :
    ∃ h', putCase3 (rotateRight nil) h (addr nil z) = some h' ∧
      Z root nil np h0 S h' z (⟨true, false, p, .node true s q s'⟩ :: rest) := by
  have hn : ∀ q, z = .nil → np = q := fun _ e => absurd e hz
  have e1 := k.readParent (hn _)
  obtain ⟨h1, s1, k1⟩ := k.paintParent false
  have e2 := k1.readParent (hn _)
  have e3 := k1.readPP
  obtain ⟨h2, s2, k2⟩ := k1.goUp.paintParent true
  have e4 := k2.goDown.readParent (hn _)
  have e5 := k2.goDown.readPP
  obtain ⟨h3, s3, k3⟩ := Z.rotR (show Z root nil np h0 S h2 (.node true (.node false z p s) q s') rest from k2.goUp)
  simp only [pa] at e1 e2 e3 e4 e5
  exact ⟨h3, by simp [putCase3, e1, s1, e2, e3, s2, e4, e5, s3], Z.goDown (f := ⟨true, false, p, .node true s q s'⟩) k3⟩

theorem Z.case3R {z s s' : T (Nat × P)} {c c' : Bool} {p q : Nat × P} {rest : List (Frame (Nat × P))}
    (k : Z root nil np h0 S h z (⟨false, c, p, s⟩ :: ⟨false, c', q, s'⟩ :: rest)) (hz : z ≠ .nil) :
    ∃ h', putCase3 (rotateLeft nil) h (addr nil z) = some h' ∧
      Z root nil np h0 S h' z (⟨false, false, p, .node true s' q s⟩ :: rest) := by
  have hn : ∀ q, z = .nil → np = q := fun _ e => absurd e hz
  have e1 := k.readParent (hn _)
  obtain ⟨h1, s1, k1⟩ := k.paintParent false
  have e2 := k1.readParent (hn _)
  have e3 := k1.readPP
  obtain ⟨h2, s2, k2⟩ := k1.goUp.paintParent true
  have e4 := k2.goDown.readParent (hn _)
  have e5 := k2.goDown.readPP
  obtain ⟨h3, s3, k3⟩ := Z.rotL (show Z root nil np h0 S h2 (.node true s' q (.node false s p z)) rest from k2.goUp)
  simp only [pa] at e1 e2 e3 e4 e5
  exact ⟨h3, by simp [putCase3, e1, s1, e2, e3, s2, e4, e5, s3], Z.goDown (f := ⟨false, false, p, .node true s' q s⟩) k3⟩

/-- The body of the loop, as the zipper model does it. -/
theorem putBody_spec {z : T (Nat × P)} {f g : Frame (Nat × P)} {rest : List (Frame (Nat × P))}
    (k : Z root nil np h0 S h z (f :: g :: rest)) (hz : z ≠ .nil) (hf : f.red = true) (fuel : Nat) (t' : T (Nat × P))
    (hr : RB.putFix (fuel + 1) z (f :: g :: rest) = some t') :
    ∃ h' z' ctx', putBody nil h (addr nil z) = some (h', addr nil z') ∧ Z root nil np h0 S h' z' ctx' ∧ z' ≠ .nil ∧
      RB.putFix fuel z' ctx' = some t' := by
  have hn : ∀ q, z = .nil → np = q := fun _ e => absurd e hz
  have e1 := k.readParent (hn _)
  have e2 := k.readPP
  have e3 := k.goUp.readPL
  have e3' := k.goUp.readPR
  have e4 := k.goUp.toSib.readRed
  have e5 := k.readPL
  have e5' := k.readPR
  simp only [pa] at e1 e2
  obtain ⟨h1, s1, k1⟩ := k.case1 hz
  have nes := k.ne_sib (Or.inl hz)
  have neu := k.goUp.ne_sib (Or.inl (by unfold up; split <;> simp))
  rw [addr_up] at neu e3 e3'
  obtain ⟨fl, fr, fp, fs⟩ := f
  obtain ⟨gl, gr, gp, gs⟩ := g
  simp only at hf e1 e2 e3 e3' e4 e5 e5' nes neu s1 k1
  subst hf
  have upne : ∀ (t : T (Nat × P)) (w : Frame (Nat × P)), up t w ≠ .nil := by intro t w; unfold up; split <;> simp
  cases gl
  · -- right parent
    simp only [Bool.false_eq_true, if_false] at e3 e3'
    cases hy : gs.isRed
    · cases fl
      · -- case 3
        obtain ⟨h3, s3, k3⟩ := k.case3R hz
        simp only [Bool.false_eq_true, if_false] at e5
        refine ⟨h3, z, _, ?_, k3, hz, ?_⟩
        · simp [putBody, putBodyR, putCase2R, e1, e2, e3, e4, e5, hy, neu, nes, s3]
        · simpa [RB.putFix, hy, up, RB.rotateLeft] using hr
      · -- case 2, then 3
        cases z with
        | nil => exact absurd rfl hz
        | node cz zl zp zr =>
          obtain ⟨h2, s2, k2⟩ := Z.rotR (show Z root nil np h0 S h (.node true (.node cz zl zp zr) fp fs) _ from k.goUp)
          obtain ⟨h3, s3, k3⟩ := Z.case3R (z := .node true zr fp fs) (Z.goDown (f := ⟨false, cz, zp, zl⟩) k2) (by simp)
          simp only [if_true] at e5
          refine ⟨h3, _, _, ?_, k3, by simp, ?_⟩
          · simp only [addr] at s3 e1 e5 ⊢
            simp [putBody, putBodyR, putCase2R, e1, e2, e3, e4, e5, hy, neu, s2, s3]
          · simpa [RB.putFix, hy, up, RB.rotateLeft, RB.rotateRight] using hr
    · refine ⟨h1, _, _, ?_, k1, upne _ _, ?_⟩
      · simp [putBody, putBodyR, e1, e2, e3, e4, hy, neu, s1, addr_up]
      · simpa [RB.putFix, hy] using hr
  · -- left parent
    simp only [if_true] at e3 e3'
    cases hy : gs.isRed
    · cases fl
      · cases z with
        | nil => exact absurd rfl hz
        | node cz zl zp zr =>
          obtain ⟨h2, s2, k2⟩ := Z.rotL (show Z root nil np h0 S h (.node true fs fp (.node cz zl zp zr)) _ from k.goUp)
          obtain ⟨h3, s3, k3⟩ := Z.case3L (z := .node true fs fp zl) (Z.goDown (f := ⟨true, cz, zp, zr⟩) k2) (by simp)
          simp only [Bool.false_eq_true, if_false] at e5'
          refine ⟨h3, _, _, ?_, k3, by simp, ?_⟩
          · simp only [addr] at s3 e1 e5' ⊢
            simp [putBody, putBodyL, putCase2L, e1, e2, e3, e3', e4, e5', hy, s2, s3]
          · simpa [RB.putFix, hy, up, RB.rotateLeft, RB.rotateRight] using hr
      · obtain ⟨h3, s3, k3⟩ := k.case3L hz
        simp only [if_true] at e5'
        refine ⟨h3, z, _, ?_, k3, hz, ?_⟩
        · simp [putBody, putBodyL, putCase2L, e1, e2, e3, e3', e4, e5', hy, nes, s3]
        · simpa [RB.putFix, hy, up, RB.rotateRight] using hr
    · refine ⟨h1, _, _, ?_, k1, upne _ _, ?_⟩
      · simp [putBody, putBodyL, e1, e2, e3, e3', e4, hy, s1, addr_up]
      · simpa [RB.putFix, hy] using hr

/-- `PutFix_`. -/
theorem putFix_sim (fuel : Nat) : ∀ {h : Heap P} {z : T (Nat × P)} {ctx : List (Frame (Nat × P))} {t' : T (Nat × P)},
    Z root nil np h0 S h z ctx → z ≠ .nil → RB.putFix fuel z ctx = some t' → ∀ n, fuel ≤ n →
    ∃ h', putFix root nil n h (addr nil z) = some h' ∧ Z root nil np h0 S h' t' [] := by
  induction fuel with
  | zero => intro h z ctx t' _ _ hr; simp [RB.putFix] at hr
  | succ fuel ih =>
    intro h z ctx t' k hz hr n hn
    obtain ⟨m, rfl⟩ : ∃ m, n = m + 1 := ⟨n - 1, by omega⟩
    have e1 := k.readParent (fun e => absurd e hz)
    -- leaving the loop
    have leave : ∀ c, getRed h (pa root ctx) = some c → c = false → some (plug z ctx).blacken = some t' →
        ∃ h', putFix root nil (m + 1) h (addr nil z) = some h' ∧ Z root nil np h0 S h' t' [] := by
      intro c hc hcf ht
      simp only [Option.some.injEq] at ht
      subst ht; subst hcf
      have kt := k.goTop
      obtain ⟨h', s, k'⟩ := kt.blacken
      have rl : getL h root = some (addr nil (plug z ctx)) := by
        obtain ⟨_, ⟨a, _, _, b, _⟩, _⟩ := kt
        simp [getL, a, b]
      exact ⟨h', by simp [putFix, e1, hc, rl, s], k'⟩
    cases ctx with
    | nil =>
      obtain ⟨_, ⟨a, b, _⟩, _⟩ := k
      exact leave false (by simp [pa, getRed, a, b]) rfl (by simpa [RB.putFix] using hr)
    | cons f ctx =>
      cases hf : f.red
      · exact leave false (by rw [← hf]; exact k.readPRed) rfl (by simpa [RB.putFix, hf] using hr)
      · cases ctx with
        | nil => simp [RB.putFix, hf] at hr
        | cons g rest =>
          obtain ⟨h', z', ctx', s, k', hz', hr'⟩ := putBody_spec k hz hf fuel t' hr
          obtain ⟨h'', s', k''⟩ := ih k' hz' hr' m (by omega)
          have e2 := k.readPRed
          rw [hf] at e2
          exact ⟨h'', by simp only [pa] at e1; simp [putFix, e1, e2, s, s'], k''⟩

end RBPtr
