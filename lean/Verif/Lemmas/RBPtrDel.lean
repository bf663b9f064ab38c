import Verif.Lemmas.RBPtrOps
/-! # Lemmas: lookup, successor and removal on the heap -/
namespace RBPtr
open RB (T Frame up plug)

section gen
variable {P : Type} {root nil np : Nat} {h0 : Heap P} {S : List Nat} {h : Heap P}

theorem Z.node_ne {c : Bool} {l r : T (Nat × P)} {p : Nat × P} {ctx : List (Frame (Nat × P))}
    (z : Z root nil np h0 S h (.node c l p r) ctx) : p.1 ≠ nil ∧ p.1 ≠ root := by
  have nd := z.nd
  simp only [addrs, List.cons_append, List.nodup_cons, List.mem_cons, not_or] at nd
  exact ⟨fun e => nd.2.1.1 e.symm, fun e => nd.1.2.1 e.symm⟩

theorem Z.root_ne {t : T (Nat × P)} {ctx : List (Frame (Nat × P))} (z : Z root nil np h0 S h t ctx) : root ≠ nil := by
  have nd := z.nd
  simp only [List.nodup_cons, List.mem_cons, not_or] at nd
  exact nd.1.1

theorem leftmost_sim (t : T (Nat × P)) : ∀ (ctx : List (Frame (Nat × P))) (n : Nat), t ≠ .nil → Z root nil np h0 S h t ctx →
    (addrs t).length ≤ n →
    ∃ c p r ctx', RB.leftmost t ctx = (.node c .nil p r, ctx') ∧ plug (.node c .nil p r) ctx' = plug t ctx ∧
      leftmost nil h n (addr nil t) = some p.1 := by
  induction t with
  | nil => intro ctx n hn; exact absurd rfl hn
  | node c l p r ihl ihr =>
    intro ctx n _ z hn
    simp only [addrs, List.length_cons, List.length_append] at hn
    obtain ⟨m, rfl⟩ : ∃ m, n = m + 1 := ⟨n - 1, by omega⟩
    have e1 := z.readL
    rcases l with _ | ⟨c2, l2, p2, r2⟩
    · refine ⟨c, p, r, ctx, by simp [RB.leftmost], rfl, ?_⟩
      simp only [addr] at e1
      simp [leftmost, addr, e1]
    · have zl : Z root nil np h0 S h (.node c2 l2 p2 r2) (⟨true, c, p, r⟩ :: ctx) := Z.goDown (f := ⟨true, c, p, r⟩) z
      obtain ⟨c', p', r', ctx', e2, e3, e4⟩ := ihl _ m (by simp) zl (by omega)
      refine ⟨c', p', r', ctx', by rw [RB.leftmost]; exact e2, e3, ?_⟩
      simp only [addr] at e1 e4
      simp [leftmost, addr, e1, e4, zl.node_ne.1]

theorem climb_sim (ctx : List (Frame (Nat × P))) : ∀ (t : T (Nat × P)) (n : Nat), t ≠ .nil → Z root nil np h0 S h t ctx →
    ctx.length < n →
    (RB.climb t ctx = none ∧ climb h n (addr nil t) (pa root ctx) = some root) ∨
    (∃ c l p r ctx', RB.climb t ctx = some (.node c l p r, ctx') ∧ plug (.node c l p r) ctx' = plug t ctx ∧
      climb h n (addr nil t) (pa root ctx) = some p.1 ∧ p.1 ≠ root) := by
  induction ctx with
  | nil =>
    intro t n ht z hn
    obtain ⟨m, rfl⟩ : ∃ m, n = m + 1 := ⟨n - 1, by omega⟩
    left
    refine ⟨rfl, ?_⟩
    have e1 : getR h root = some nil := by
      obtain ⟨_, ⟨a, _, _, _, e⟩, _⟩ := z
      simp [getR, a, e]
    rcases t with _ | ⟨c, l, p, r⟩
    · exact absurd rfl ht
    · have := z.node_ne.1
      simp [climb, pa, e1, addr, this]
  | cons f fs ih =>
    intro t n ht z hn
    obtain ⟨m, rfl⟩ : ∃ m, n = m + 1 := ⟨n - 1, by simp only [List.length_cons] at hn; omega⟩
    have e1 := z.readPR
    have e2 := z.readPP
    have hs := z.ne_sib (Or.inl ht)
    cases hl : f.left
    · rw [hl] at e1
      simp only [Bool.false_eq_true, if_false] at e1
      have hu : up t f ≠ .nil := by unfold up; split <;> simp
      have ex : climb h (m + 1) (addr nil t) (pa root (f :: fs)) = climb h m (addr nil (up t f)) (pa root fs) := by
        rw [addr_up]
        simp [climb, pa, e1, e2]
      have ez : RB.climb t (f :: fs) = RB.climb (up t f) fs := by simp [RB.climb, hl]
      rw [ex, ez]
      exact ih _ m hu z.goUp (by simp only [List.length_cons] at hn; omega)
    · rw [hl] at e1
      simp only [if_true] at e1
      right
      have zu := z.goUp
      simp only [up, hl, if_true] at zu
      refine ⟨f.red, t, f.pay, f.sib, fs, by simp [RB.climb, hl, up], by simp [plug, up, hl], ?_, zu.node_ne.2⟩
      simp [climb, pa, e1, hs]

/-- `Next_`: nil at the end, else the node the zipper model gives. -/
theorem next_sim {c : Bool} {l r : T (Nat × P)} {p : Nat × P} {ctx : List (Frame (Nat × P))} {n : Nat}
    (z : Z root nil np h0 S h (.node c l p r) ctx) (hn : S.length ≤ n + 2) :
    (RB.next (.node c l p r, ctx) = none ∧ next root nil n h p.1 = some nil) ∨
    (∃ c' l' p' r' ctx', RB.next (.node c l p r, ctx) = some (.node c' l' p' r', ctx') ∧
      plug (.node c' l' p' r') ctx' = plug (.node c l p r) ctx ∧ next root nil n h p.1 = some p'.1) := by
  have len := z.perm.length_eq
  simp only [List.length_cons, List.length_append, addrs] at len
  have lc := length_ctx ctx
  have e1 := z.readR
  rcases r with _ | ⟨c2, l2, p2, r2⟩
  · simp only [addr] at e1
    have e2 := z.readParent (by simp)
    rcases climb_sim ctx _ n (by simp) z (by omega) with ⟨a, b⟩ | ⟨c', l', p', r', ctx', a, b, d, g⟩
    · left
      refine ⟨by simpa [RB.next] using a, ?_⟩
      simp only [addr] at b e2
      simp [next, e1, e2, b]
    · right
      refine ⟨c', l', p', r', ctx', by simpa [RB.next] using a, b, ?_⟩
      simp only [addr] at d e2
      simp [next, e1, e2, d, g]
  · right
    have zr : Z root nil np h0 S h (.node c2 l2 p2 r2) (⟨false, c, p, l⟩ :: ctx) := Z.goDown (f := ⟨false, c, p, l⟩) z
    obtain ⟨c', p', r', ctx', a, b, d⟩ := leftmost_sim _ _ n (by simp) zr (by simp only [addrs, List.length_cons, List.length_append] at len ⊢; omega)
    refine ⟨c', _, p', r', ctx', by simp [RB.next, a], b, ?_⟩
    simp only [addr] at d e1
    simp [next, e1, zr.node_ne.1, d]

theorem Rep.reparent {q x : Nat} {b : T (Nat × P)} (r : Rep nil h q b) (nd : (addrs b).Nodup) :
    Rep nil { h with parent := upd h.parent (addr nil b) x } x b := by
  rcases b with _ | ⟨c, l, p, rt⟩
  · trivial
  · obtain ⟨n, rl, rr⟩ := r
    simp only [addrs, List.mem_append, List.nodup_cons, not_or] at nd
    have ag : ∀ z, z ≠ p.1 → Agree h { h with parent := upd h.parent p.1 x } z :=
      fun z hz => ⟨rfl, rfl, rfl, rfl, rfl, upd_ne _ _ hz⟩
    exact ⟨⟨n.alive, n.red, n.pay, n.left, n.right, upd_same _ _ _⟩,
      Rep.agree _ (fun a ha => ag a (by rintro rfl; exact nd.1.1 ha)) rl,
      Rep.agree _ (fun a ha => ag a (by rintro rfl; exact nd.1.2 ha)) rr⟩

theorem addr_cases (x : T (Nat × P)) : addr nil x = nil ∨ addr nil x ∈ addrs x := by
  rcases x with _ | ⟨c, l, p, r⟩ <;> simp [addr, addrs]

/-- `x` takes the place of `y`, its parent in the tree having no other child. -/
theorem Z.unlink {yc : Bool} {yl yr x : T (Nat × P)} {yp : Nat × P} {ctx : List (Frame (Nat × P))}
    (z : Z root nil np h0 S h (.node yc yl yp yr) ctx) (hx : yl = .nil ∧ x = yr ∨ yr = .nil ∧ x = yl) :
    ∃ h1 S1, unlink root h (addr nil x) yp.1 = some h1 ∧ Z root nil (h1.parent nil) h1 S1 h1 x ctx ∧
      (x = .nil → h1.parent nil = pa root ctx) ∧ S.Perm (yp.1 :: S1) ∧ h1.alive = h.alive ∧ h1.pay = h.pay ∧
      (∀ a, a ∉ S1 → Agree h h1 a) := by
  have nd := z.nd
  have hy := z.node_ne
  have py := z.readParent (by simp)
  have S0 : S.Perm (yp.1 :: root :: nil :: (addrs x ++ addrsC ctx)) := by
    refine z.perm.symm.trans ?_
    have : addrs (.node yc yl yp yr) = yp.1 :: addrs x := by rcases hx with ⟨a, b⟩ | ⟨a, b⟩ <;> simp [addrs, a, b]
    rw [this]
    simp only [List.cons_append]
    exact .trans (.cons _ (.swap _ _ _)) (.swap _ _ _)
  have rx : Rep nil h yp.1 x := by
    rcases hx with ⟨a, b⟩ | ⟨a, b⟩ <;> subst b
    · exact z.rep.2.2
    · exact z.rep.2.1
  have nd2 := S0.nodup_iff.mp z.nodup
  simp only [List.nodup_cons, List.mem_cons, List.mem_append, not_or, List.nodup_append] at nd2
  obtain ⟨⟨yr', yn, yx, yctx⟩, ⟨rn, rx', rctx⟩, ⟨nx, nctx⟩, ndx, ndc, dxc⟩ := nd2
  have hax : addr nil x ≠ yp.1 := by
    rcases addr_cases (nil := nil) x with e | e
    · rw [e]; exact Ne.symm yn
    · exact fun e' => yx (e' ▸ e)
  have haxr : addr nil x ≠ root := by
    rcases addr_cases (nil := nil) x with e | e
    · rw [e]; exact Ne.symm rn
    · exact fun e' => rx' (e' ▸ e)
  have haxc : addr nil x ∉ addrsC ctx := by
    rcases addr_cases (nil := nil) x with e | e
    · rw [e]; exact nctx
    · exact fun e' => dxc _ e _ e' rfl
  have axa : h.alive (addr nil x) = true := by
    rcases x with _ | ⟨c, l, p, r⟩
    · exact z.nilAlive
    · exact rx.1.alive
  let h1 : Heap P := { h with parent := upd h.parent (addr nil x) (pa root ctx) }
  have ag1 : ∀ a, a ≠ addr nil x → Agree h h1 a := fun a ha => ⟨rfl, rfl, rfl, rfl, rfl, upd_ne _ _ ha⟩
  have rc1 : RepC root nil h1 yp.1 ctx := RepC.agree _ (ag1 _ (Ne.symm haxr)) (fun a ha => ag1 a (by rintro rfl; exact haxc ha)) z.repC
  have rx1 : Rep nil h1 (pa root ctx) x := rx.reparent ndx
  have pam : pa root ctx = root ∨ pa root ctx ∈ addrsC ctx := pa_mem root ctx
  have aly : h.alive yp.1 = true := z.rep.1.alive
  -- the link from the parent
  have link : ∃ h2, (if root = pa root ctx then setL h1 root (addr nil x) else relink h1 yp.1 (addr nil x)) = some h2 ∧
      RepC root nil h2 (addr nil x) ctx ∧ h2.alive = h1.alive ∧ h2.red = h1.red ∧ h2.pay = h1.pay ∧ h2.parent = h1.parent ∧
      (∀ z, z ≠ pa root ctx → Agree h1 h2 z) := by
    rcases ctx with _ | ⟨f, fs⟩
    · obtain ⟨h2, s2, rest⟩ := hole_set (v := addr nil x) rc1 (by simp [addrsC]) (by simp [addrsC])
      exact ⟨h2, by simpa [pa] using s2, rest⟩
    · have hne : root ≠ f.pay.1 := fun e => rctx (by simp [addrsC, e])
      obtain ⟨h2, s2, rest⟩ := relink_spec (y := addr nil x) rc1 (by
          show upd h.parent (addr nil x) _ yp.1 = _
          rw [upd_ne _ _ (Ne.symm hax)]; exact z.rep.1.parent) aly (ne_sib_of yn yctx) rctx ndc
      exact ⟨h2, by simp only [pa, hne, if_false]; exact s2, rest⟩
  obtain ⟨h2, s2, rc2, al2, red2, pay2, par2, ag2⟩ := link
  refine ⟨h2, root :: nil :: (addrs x ++ addrsC ctx), ?_, ⟨?_, rc2, ?_, ?_, ?_, rfl, List.Perm.refl _, ?_, ⟨rfl, rfl⟩,
    fun a _ => Agree.refl _ a⟩, ?_, S0, by rw [al2], by rw [pay2], ?_⟩
  · have g1 : getP h yp.1 = some (pa root ctx) := py
    have g2 : setP h (addr nil x) (pa root ctx) = some h1 := by simp [setP, axa, h1]
    have g3 : getP h1 (addr nil x) = some (pa root ctx) := by simp [getP, h1, axa, upd_same]
    simp only [RBPtr.unlink, g1, g2, g3, Option.bind_eq_bind, Option.bind_some]
    exact s2
  · refine Rep.agree _ (fun a ha => ag2 a ?_) rx1
    rintro rfl
    rcases pam with e | e
    · exact rx' (e ▸ ha)
    · exact dxc _ ha _ e rfl
  · rw [al2]; exact z.nilAlive
  · rw [red2]; exact z.nilRed
  · rw [pay2]; exact z.nilPay
  · have := S0.nodup_iff.mp z.nodup
    exact (List.nodup_cons.mp this).2
  · rintro rfl
    rw [par2]
    exact upd_same _ _ _
  · intro a ha
    simp only [List.mem_cons, List.mem_append, not_or] at ha
    refine (ag1 a ?_).trans (ag2 a ?_)
    · rcases addr_cases (nil := nil) x with e | e
      · rw [e]; exact ha.2.1
      · rintro rfl; exact ha.2.2.1 e
    · rintro rfl
      rcases pam with e | e
      · exact ha.1 e
      · exact ha.2.2.2 e

/-- `y`, a block outside the tree, takes over the place of `z`. -/
theorem Z.takeOver {zc : Bool} {zl zr : T (Nat × P)} {zp : Nat × P} {ctx : List (Frame (Nat × P))} {y : Nat} {v : P}
    (z : Z root nil np h0 S h (.node zc zl zp zr) ctx) (hy : y ∉ S) (ay : h.alive y = true) (py : h.pay y = some v) :
    ∃ h1 S1, takeOver h zp.1 y = some h1 ∧ Z root nil (h1.parent nil) h1 S1 h1 (.node zc zl (y, v) zr) ctx ∧
      (zp.1 :: S1).Perm (y :: S) ∧ h1.alive = h.alive ∧ h1.pay = h.pay ∧ (∀ a, a ∉ y :: S → Agree h h1 a) := by
  have nd := z.nd
  have hz := z.node_ne
  obtain ⟨⟨n, rl, rr⟩, rc, na, nr, npay, npar, e, g, i, j⟩ := z
  have hin : ∀ a, a ∈ root :: nil :: (addrs (.node zc zl zp zr) ++ addrsC ctx) → a ≠ y := fun a ha e' => hy (e' ▸ e.subset ha)
  have yroot : root ≠ y := hin _ (by simp)
  have ynil : nil ≠ y := hin _ (by simp)
  have yz : zp.1 ≠ y := hin _ (by simp [addrs])
  have yl : ∀ a ∈ addrs zl, a ≠ y := fun a ha => hin a (by simp [addrs, ha])
  have yr : ∀ a ∈ addrs zr, a ≠ y := fun a ha => hin a (by simp [addrs, ha])
  have yc : ∀ a ∈ addrsC ctx, a ≠ y := fun a ha => hin a (by simp [addrs, ha])
  simp only [addrs, List.cons_append, List.append_assoc, List.nodup_cons, List.mem_cons, List.mem_append, not_or,
    List.nodup_append] at nd
  obtain ⟨⟨rn, rz, rnl, rnr, rnc⟩, ⟨nz, nnl, nnr, nnc⟩, ⟨zl', zr', zc'⟩, ndl, ⟨ndr, ndc, drc⟩, dl⟩ := nd
  have lne : addr nil zl ≠ y ∧ addr nil zl ≠ zp.1 ∧ addr nil zl ≠ root ∧ addr nil zl ∉ addrs zr ∧ addr nil zl ∉ addrsC ctx := by
    rcases addr_cases (nil := nil) zl with e' | e'
    · rw [e']; exact ⟨ynil, nz, Ne.symm rn, nnr, nnc⟩
    · exact ⟨yl _ e', fun h => zl' (h ▸ e'), fun h => rnl (h ▸ e'), fun h => dl _ e' _ (Or.inl h) rfl, fun h => dl _ e' _ (Or.inr h) rfl⟩
  have rne : addr nil zr ≠ y ∧ addr nil zr ≠ zp.1 ∧ addr nil zr ≠ root ∧ addr nil zr ∉ addrs zl ∧ addr nil zr ∉ addrsC ctx := by
    rcases addr_cases (nil := nil) zr with e' | e'
    · rw [e']; exact ⟨ynil, nz, Ne.symm rn, nnl, nnc⟩
    · exact ⟨yr _ e', fun h => zr' (h ▸ e'), fun h => rnr (h ▸ e'), fun h => dl _ h _ (Or.inl e') rfl, fun h => drc _ e' _ h rfl⟩
  have alz : h.alive zp.1 = true := n.alive
  have all : h.alive (addr nil zl) = true := by
    rcases zl with _ | ⟨c, l, p, r⟩
    · exact na
    · exact rl.1.alive
  have alr : h.alive (addr nil zr) = true := by
    rcases zr with _ | ⟨c, l, p, r⟩
    · exact na
    · exact rr.1.alive
  -- the heap before the parent's link is set
  let h1 : Heap P := ⟨h.alive, upd h.red y zc, upd h.left y (addr nil zl), upd h.right y (addr nil zr),
    upd h.parent y (pa root ctx), h.pay⟩
  let h2 : Heap P := { h1 with parent := upd h1.parent (addr nil zl) y }
  let h3 : Heap P := { h2 with parent := upd h2.parent (addr nil zr) y }
  have ag1 : ∀ a, a ≠ y → Agree h h1 a := fun a ha => ⟨rfl, upd_ne _ _ ha, rfl, upd_ne _ _ ha, upd_ne _ _ ha, upd_ne _ _ ha⟩
  have ag2 : ∀ a, a ≠ addr nil zl → Agree h1 h2 a := fun a ha => ⟨rfl, rfl, rfl, rfl, rfl, upd_ne _ _ ha⟩
  have ag3 : ∀ a, a ≠ addr nil zr → Agree h2 h3 a := fun a ha => ⟨rfl, rfl, rfl, rfl, rfl, upd_ne _ _ ha⟩
  have agz : Agree h h3 zp.1 := ((ag1 _ yz).trans (ag2 _ (Ne.symm lne.2.1))).trans (ag3 _ (Ne.symm rne.2.1))
  have rc3 : RepC root nil h3 zp.1 ctx := by
    refine RepC.agree _ (((ag1 _ yroot).trans (ag2 _ (Ne.symm lne.2.2.1))).trans (ag3 _ (Ne.symm rne.2.2.1))) (fun a ha => ?_) rc
    refine ((ag1 _ (yc a ha)).trans (ag2 _ ?_)).trans (ag3 _ ?_)
    · rintro rfl; exact lne.2.2.2.2 ha
    · rintro rfl; exact rne.2.2.2.2 ha
  have rl3 : Rep nil h3 y zl := by
    have r1 : Rep nil h1 zp.1 zl := Rep.agree _ (fun a ha => ag1 a (yl a ha)) rl
    have r2 : Rep nil h2 y zl := r1.reparent ndl
    exact Rep.agree _ (fun a ha => ag3 a (by rintro rfl; exact rne.2.2.2.1 ha)) r2
  have rr3 : Rep nil h3 y zr := by
    have r1 : Rep nil h1 zp.1 zr := Rep.agree _ (fun a ha => ag1 a (yr a ha)) rr
    have r2 : Rep nil h2 zp.1 zr := Rep.agree _ (fun a ha => ag2 a (by rintro rfl; exact lne.2.2.2.1 ha)) r1
    exact r2.reparent ndr
  obtain ⟨h4, s4, rc4, al4, red4, pay4, par4, ag4⟩ := relink_spec (y := y) rc3 (by rw [agz.parent]; exact n.parent)
    (by rw [agz.alive]; exact n.alive) (ne_sib_of (Ne.symm nz) zc') rnc ndc
  have pam := pa_mem root ctx
  have ypa : y ≠ pa root ctx := by
    rcases pam with e' | e'
    · rw [e']; exact Ne.symm yroot
    · exact fun h => yc _ e' h.symm
  refine ⟨h4, root :: nil :: (addrs (.node zc zl (y, v) zr) ++ addrsC ctx), ?_, ⟨⟨NodeAt.agree (h := h3) ⟨ay, ?_, py, ?_, ?_, ?_⟩ (ag4 y ypa),
    ?_, ?_⟩, rc4, ?_, ?_, ?_, rfl, List.Perm.refl _, ?_, ⟨rfl, rfl⟩, fun a _ => Agree.refl _ a⟩, ?_, by rw [al4], by rw [pay4], ?_⟩
  · have hl : h.left zp.1 = addr nil zl := n.left
    have hr : h.right zp.1 = addr nil zr := n.right
    have hp : h.parent zp.1 = pa root ctx := n.parent
    have hc : h.red zp.1 = zc := n.red
    let a1 : Heap P := { h with left := upd h.left y (addr nil zl) }
    let a2 : Heap P := { a1 with right := upd h.right y (addr nil zr) }
    let a3 : Heap P := { a2 with parent := upd h.parent y (pa root ctx) }
    have g1 : getL h zp.1 = some (addr nil zl) := by simp [getL, alz, hl]
    have g2 : setL h y (addr nil zl) = some a1 := by simp [setL, ay, a1]
    have g3 : getR a1 zp.1 = some (addr nil zr) := by simp [getR, a1, alz, hr]
    have g4 : setR a1 y (addr nil zr) = some a2 := by simp [setR, a1, ay, a2]
    have g5 : getP a2 zp.1 = some (pa root ctx) := by simp [getP, a2, a1, alz, hp]
    have g6 : setP a2 y (pa root ctx) = some a3 := by simp [setP, a2, a1, ay, a3]
    have g7 : getRed a3 zp.1 = some zc := by simp [getRed, a3, a2, a1, alz, hc]
    have g8 : setRed a3 y zc = some h1 := by simp [setRed, a3, a2, a1, ay, h1]
    have g9 : getL h1 zp.1 = some (addr nil zl) := by simp [getL, h1, alz, upd_ne _ _ yz, hl]
    have g10 : setP h1 (addr nil zl) y = some h2 := by simp [setP, h1, all, h2]
    have g11 : getR h2 zp.1 = some (addr nil zr) := by simp [getR, h2, h1, alz, upd_ne _ _ yz, hr]
    have g12 : setP h2 (addr nil zr) y = some h3 := by simp [setP, h2, h1, alr, h3]
    simp [RBPtr.takeOver, g1, g2, g3, g4, g5, g6, g7, g8, g9, g10, g11, g12, s4]
  · exact upd_same _ _ _
  · exact upd_same _ _ _
  · exact upd_same _ _ _
  · show upd (upd (upd h.parent y (pa root ctx)) (addr nil zl) y) (addr nil zr) y y = _
    rw [upd_ne _ _ (Ne.symm rne.1), upd_ne _ _ (Ne.symm lne.1), upd_same]
  · refine Rep.agree _ (fun a ha => ag4 a ?_) rl3
    rintro rfl
    rcases pam with e' | e'
    · exact rnl (e' ▸ ha)
    · exact dl _ ha _ (Or.inr e') rfl
  · refine Rep.agree _ (fun a ha => ag4 a ?_) rr3
    rintro rfl
    rcases pam with e' | e'
    · exact rnr (e' ▸ ha)
    · exact drc _ ha _ e' rfl
  · rw [al4]; exact na
  · rw [red4]
    show upd h.red y zc nil = false
    rw [upd_ne _ _ ynil, nr]
  · rw [pay4]; exact npay
  · have p1 : (y :: S).Perm (zp.1 :: (root :: nil :: (addrs (.node zc zl (y, v) zr) ++ addrsC ctx))) := by
      refine (List.Perm.cons y e.symm).trans ?_
      simp only [addrs, List.cons_append]
      refine .trans (.cons _ (.trans (.cons _ (.swap _ _ _)) (.swap _ _ _))) ?_
      refine .trans (.swap _ _ _) (.cons _ ?_)
      exact .trans (.swap _ _ _) (.cons _ (.swap _ _ _))
    have := p1.nodup_iff.mp (List.nodup_cons.mpr ⟨hy, g⟩)
    exact (List.nodup_cons.mp this).2
  · refine List.Perm.symm ((List.Perm.cons y e.symm).trans ?_)
    simp only [addrs, List.cons_append]
    refine .trans (.cons _ (.trans (.cons _ (.swap _ _ _)) (.swap _ _ _))) ?_
    refine .trans (.swap _ _ _) (.cons _ ?_)
    exact .trans (.swap _ _ _) (.cons _ (.swap _ _ _))
  · intro a ha
    have ha' : a ≠ y ∧ a ∉ root :: nil :: (addrs (.node zc zl zp zr) ++ addrsC ctx) := by
      simp only [List.mem_cons, not_or] at ha
      exact ⟨ha.1, fun hm => ha.2 (e.subset hm)⟩
    obtain ⟨ha1, ha2⟩ := ha'
    simp only [addrs, List.cons_append, List.append_assoc, List.mem_cons, List.mem_append, not_or] at ha2
    obtain ⟨x1, x2, x3, x4, x5, x6⟩ := ha2
    refine (((ag1 a ha1).trans (ag2 a ?_)).trans (ag3 a ?_)).trans (ag4 a ?_)
    · rcases addr_cases (nil := nil) zl with e' | e'
      · rw [e']; exact x2
      · rintro rfl; exact x4 e'
    · rcases addr_cases (nil := nil) zr with e' | e'
      · rw [e']; exact x2
      · rintro rfl; exact x5 e'
    · rintro rfl
      rcases pam with e' | e'
      · exact x1 e'
      · exact x6 e'

/-- Freeing a block outside the tree. -/
theorem Z.freed {t : T (Nat × P)} (z : Z root nil np h0 S h t []) (a : Nat) (ha : a ∉ S) (al : h.alive a = true) :
    ∃ h', nodeDestroy h a = some (h', h.pay a) ∧ Z root nil (h'.parent nil) h' S h' t [] ∧ h'.alive = upd h.alive a false ∧
      h'.pay = h.pay ∧ (∀ x, x ≠ a → Agree h h' x) := by
  have ag : ∀ x, x ≠ a → Agree h { h with alive := upd h.alive a false } x := fun x hx => ⟨upd_ne _ _ hx, rfl, rfl, rfl, rfl, rfl⟩
  have hin : ∀ x, x ∈ root :: nil :: (addrs t ++ addrsC ([] : List (Frame (Nat × P)))) → x ≠ a := fun x hx e => ha (e ▸ z.perm.subset hx)
  refine ⟨{ h with alive := upd h.alive a false }, by simp [nodeDestroy, getPay, al, free], ⟨?_, ?_, ?_, z.nilRed, z.nilPay, rfl,
    z.perm, z.nodup, ⟨rfl, rfl⟩, fun x _ => Agree.refl _ x⟩, rfl, rfl, ag⟩
  · exact Rep.agree _ (fun x hx => ag x (hin x (by simp [hx]))) z.rep
  · exact RepC.agree _ (ag _ (hin _ (by simp))) (fun x hx => by simp [addrsC] at hx) z.repC
  · rw [(ag nil (hin _ (by simp))).alive]; exact z.nilAlive

/-- The fix after the unlinking. -/
theorem fix_sim {x R : T (Nat × P)} {ctx : List (Frame (Nat × P))} {y : Nat} {yc : Bool} {fuel : Nat}
    (z : Z root nil np h0 S h x ctx) (hx : x = .nil → np = pa root ctx) (ay : h.alive y = true) (ry : h.red y = yc)
    (hr : (if yc then some (plug x ctx) else RB.removeFix (2 * ctx.length + 2) x ctx ctx.isEmpty) = some R)
    (hf : 2 * ctx.length + 3 ≤ fuel) :
    ∃ h', fixIfBlack root nil fuel h (addr nil x) y = some h' ∧ Z root nil np h0 S h' R [] := by
  have e1 : getRed h y = some yc := by simp [getRed, ay, ry]
  cases yc
  · simp only [Bool.false_eq_true, if_false] at hr
    have zt := z.goTop
    have e2 : getL h root = some (addr nil (plug x ctx)) := by
      obtain ⟨_, ⟨a, _, _, b, _⟩, _⟩ := zt
      simp [getL, a, b]
    have hb : ctx.isEmpty = true ↔ addr nil x = addr nil (plug x ctx) := by
      cases ctx with
      | nil => simp [plug]
      | cons f fs =>
        simp only [List.isEmpty_cons, Bool.false_eq_true, false_iff]
        intro e
        have m := addr_plug_mem (nil := nil) (f :: fs) (by simp) x
        rw [← e] at m
        have nd := z.nd
        rcases addr_cases (nil := nil) x with e' | e'
        · rw [e'] at m
          simp only [List.nodup_cons, List.mem_cons, List.mem_append, not_or] at nd
          exact nd.2.1.2 m
        · simp only [List.nodup_cons, List.mem_cons, List.mem_append, not_or, List.nodup_append] at nd
          exact nd.2.2.2.2 _ e' _ m rfl
    obtain ⟨h', s', z'⟩ := removeLoop_sim (addr nil (plug x ctx)) _ z hx hb (fun _ _ => rfl) hr fuel (by omega)
    exact ⟨h', by simp [fixIfBlack, e1, removeFix, e2, s'], z'⟩
  · simp only [if_true, Option.some.injEq] at hr
    exact ⟨h, by simp [fixIfBlack, e1], hr ▸ z.goTop⟩

end gen

section foc
variable {P : Type}

theorem exists_focus (a : Nat) (t : T (Nat × P)) : ∀ ctx0 : List (Frame (Nat × P)), a ∈ addrs t →
    ∃ c l p r ctx, plug (.node c l p r) ctx = plug t ctx0 ∧ p.1 = a := by
  induction t with
  | nil => intro ctx0 h; simp [addrs] at h
  | node c l p r ihl ihr =>
    intro ctx0 h
    simp only [addrs, List.mem_cons, List.mem_append] at h
    rcases h with h | h | h
    · exact ⟨c, l, p, r, ctx0, rfl, h.symm⟩
    · obtain ⟨c', l', p', r', ctx', e, e'⟩ := ihl (⟨true, c, p, r⟩ :: ctx0) h
      exact ⟨c', l', p', r', ctx', e, e'⟩
    · obtain ⟨c', l', p', r', ctx', e, e'⟩ := ihr (⟨false, c, p, l⟩ :: ctx0) h
      exact ⟨c', l', p', r', ctx', e, e'⟩

/-- Putting `q` for the payload at address `z`. -/
def sub (z : Nat) (q p : Nat × P) : Nat × P := if p.1 = z then q else p

theorem map_sub {z : Nat} {q : Nat × P} (t : T (Nat × P)) (h : z ∉ addrs t) : t.map (sub z q) = t := by
  induction t with
  | nil => rfl
  | node c l p r ihl ihr =>
    simp only [addrs, List.mem_cons, List.mem_append, not_or] at h
    have : sub z q p = p := by simp only [sub]; rw [if_neg (Ne.symm h.1)]
    simp [RB.T.map, ihl h.2.1, ihr h.2.2, this]

theorem map_subC {z : Nat} {q : Nat × P} (ctx : List (Frame (Nat × P))) (h : z ∉ addrsC ctx) : ctx.map (RB.Frame.map (sub z q)) = ctx := by
  induction ctx with
  | nil => rfl
  | cons f fs ih =>
    simp only [addrsC, List.mem_cons, List.mem_append, not_or] at h
    have : sub z q f.pay = f.pay := by simp only [sub]; rw [if_neg (Ne.symm h.1)]
    simp [RB.Frame.map, ih h.2.2, this, map_sub f.sib h.2.1]

theorem leftmost_append (t : T P) : ∀ a b : List (Frame P), RB.leftmost t (a ++ b) = ((RB.leftmost t a).1, (RB.leftmost t a).2 ++ b) := by
  induction t with
  | nil => intro a b; simp [RB.leftmost]
  | node c l p r ihl ihr =>
    intro a b
    rcases l with _ | ⟨c2, l2, p2, r2⟩
    · simp [RB.leftmost]
    · rw [RB.leftmost, RB.leftmost]
      exact ihl (⟨true, c, p, r⟩ :: a) b

theorem leftmost_map {Q : Type} (g : P → Q) (t : T P) : ∀ ctx : List (Frame P),
    RB.leftmost (t.map g) (ctx.map (RB.Frame.map g)) = ((RB.leftmost t ctx).1.map g, (RB.leftmost t ctx).2.map (RB.Frame.map g)) := by
  induction t with
  | nil => intro ctx; simp [RB.leftmost, RB.T.map]
  | node c l p r ihl ihr =>
    intro ctx
    rcases l with _ | ⟨c2, l2, p2, r2⟩
    · simp [RB.leftmost, RB.T.map]
    · have := ihl (⟨true, c, p, r⟩ :: ctx)
      simp only [RB.T.map, List.map_cons] at this ⊢
      rw [RB.leftmost, RB.leftmost]
      exact this

theorem addrsC_append (a b : List (Frame (Nat × P))) : addrsC (a ++ b) = addrsC a ++ addrsC b := by
  induction a with
  | nil => rfl
  | cons f fs ih => simp [addrsC, ih]

end foc

section del
variable {K V : Type}

/-- What `removeNode` leaves behind. -/
structure Removed (s : St K V) (t : T (Nat × (K × V))) (a : Nat) (s' : St K V) (t2 : T (Nat × (K × V))) : Prop where
  holds : Holds s' t2
  root : s'.root = s.root
  nil : s'.nil = s.nil
  alive : s'.h.alive = upd s.h.alive a false
  pay : s'.h.pay = s.h.pay
  perm : (a :: addrs t2).Perm (addrs t)
  out : ∀ x, x ∉ s.root :: s.nil :: addrs t → Agree s.h s'.h x

theorem perm_drop {a r n : Nat} {l l' : List Nat} (h : (a :: r :: n :: l).Perm (r :: n :: l')) : (a :: l).Perm l' := by
  have sw : (r :: n :: a :: l).Perm (a :: r :: n :: l) := .trans (.cons _ (.swap _ _ _)) (.swap _ _ _)
  exact (sw.trans h).cons_inv.cons_inv

/-- A node with at most one child is removed. -/
theorem removeNode_one {s : St K V} {t : T (Nat × (K × V))} (H : Holds s t) {zc : Bool} {zl zr x R : T (Nat × (K × V))}
    {zp : Nat × (K × V)} {ctx : List (Frame (Nat × (K × V)))} (hp : plug (.node zc zl zp zr) ctx = t)
    (hx : zl = .nil ∧ x = zr ∨ zr = .nil ∧ x = zl)
    (hr : (if zc then some (plug x ctx) else RB.removeFix (2 * ctx.length + 2) x ctx ctx.isEmpty) = some R) :
    ∃ s', removeNode s zp.1 zp.1 (addr s.nil x) = some (s', true, [some zp.2]) ∧ Removed s t zp.1 s' R := by
  have z := Z.fromTop ctx (t := .node zc zl zp zr) (by rw [hp]; exact H.z)
  obtain ⟨h1, S1, s1, z1, np1, pS, al1, pay1, ag1⟩ := z.unlink hx
  have nS := pS.nodup_iff.mp z.nodup
  have yS : zp.1 ∉ S1 := (List.nodup_cons.mp nS).1
  have n := z.rep.1
  have len : ctx.length + 1 ≤ s.size := by
    have l1 := z.perm.length_eq
    have l2 := length_ctx ctx
    simp only [addrs, List.length_cons, List.length_append] at l1
    rw [H.size]; omega
  obtain ⟨h2, s2, z2⟩ := fix_sim (fuel := 2 * s.size + 3) z1 np1 (by rw [al1]; exact n.alive) (by rw [(ag1 _ yS).red]; exact n.red) hr
    (by omega)
  obtain ⟨h3, s3, z3, al3, pay3, ag3⟩ := z2.freed zp.1 yS (by rw [z2.keep.1, al1]; exact n.alive)
  have hpay : h2.pay zp.1 = some zp.2 := by rw [z2.keep.2, pay1]; exact n.pay
  rw [hpay] at s3
  have pm : (zp.1 :: addrs R).Perm (addrs t) := by
    have p3 := z3.perm
    simp only [addrsC, List.append_nil] at p3
    exact perm_drop ((List.Perm.cons zp.1 p3).trans pS.symm)
  have hs0 : s.size ≠ 0 := by omega
  refine ⟨{ s with h := h3, size := s.size - 1 }, ?_, ⟨Z.toHolds (s := { s with h := h3, size := s.size - 1 }) z3 ?_, rfl, rfl, ?_, ?_, pm, ?_⟩⟩
  · simp [removeNode, s1, s2, s3, hs0]
  · have := pm.length_eq
    simp only [List.length_cons] at this
    show s.size - 1 = _
    rw [H.size]; omega
  · show h3.alive = _
    rw [al3, z2.keep.1, al1]
  · show h3.pay = _
    rw [pay3, z2.keep.2, pay1]
  · intro a ha
    have ha1 : a ∉ S1 := fun hm => ha (pS.symm.subset (List.mem_cons_of_mem _ hm))
    have ha2 : a ≠ zp.1 := by rintro rfl; exact ha (pS.symm.subset (by simp))
    exact ((ag1 a ha1).trans (z2.out a ha1)).trans (ag3 a ha2)

/-- A node with two children is removed; its successor `y` takes its place. -/
theorem removeNode_two {s : St K V} {t : T (Nat × (K × V))} (H : Holds s t) {zc yc : Bool} {zl yr R' : T (Nat × (K × V))}
    {zp yp : Nat × (K × V)} {q ctx : List (Frame (Nat × (K × V)))}
    (hp : plug (.node yc .nil yp yr) (q ++ ⟨false, zc, zp, zl⟩ :: ctx) = t)
    (hr : (if yc then some (plug yr (q ++ ⟨false, zc, yp, zl⟩ :: ctx)) else
      RB.removeFix (2 * (q ++ ⟨false, zc, yp, zl⟩ :: ctx).length + 2) yr (q ++ ⟨false, zc, yp, zl⟩ :: ctx)
        (q ++ ⟨false, zc, yp, zl⟩ :: ctx).isEmpty) = some R') :
    ∃ s', removeNode s zp.1 yp.1 (addr s.nil yr) = some (s', true, [some zp.2]) ∧ Removed s t zp.1 s' R' := by
  have z := Z.fromTop _ (t := .node yc .nil yp yr) (by rw [hp]; exact H.z)
  obtain ⟨h1, S1, s1, z1, np1, pS, al1, pay1, ag1⟩ := z.unlink (x := yr) (Or.inl ⟨rfl, rfl⟩)
  have nS := pS.nodup_iff.mp z.nodup
  have yS : yp.1 ∉ S1 := (List.nodup_cons.mp nS).1
  have n := z.rep.1
  have nd := z1.nd
  simp only [addrsC_append, addrsC, List.nodup_cons, List.mem_cons, List.mem_append, not_or, List.nodup_append] at nd
  obtain ⟨⟨_, _, _, rz, _, _⟩, ⟨_, _, nz, _, _⟩, ndy, ⟨_, ⟨⟨zl', zctx⟩, _⟩, dq⟩, dy⟩ := nd
  have zyr : zp.1 ∉ addrs yr := fun hm => dy _ hm _ (Or.inr (Or.inl rfl)) rfl
  have zq : zp.1 ∉ addrsC q := fun hm => dq _ hm _ (Or.inl rfl) rfl
  have zS1 : zp.1 ∈ S1 := z1.perm.subset (by simp [addrsC_append, addrsC])
  have zy : zp.1 ≠ yp.1 := fun e => yS (e ▸ zS1)
  -- the payload is replaced before or after the fix
  have hc : (q ++ ⟨false, zc, yp, zl⟩ :: ctx) = (q ++ ⟨false, zc, zp, zl⟩ :: ctx).map (RB.Frame.map (sub zp.1 yp)) := by
    simp only [List.map_append, List.map_cons, map_subC q zq, map_subC ctx zctx, RB.Frame.map, map_sub zl zl', sub, if_true]
  have hl : (q ++ (⟨false, zc, yp, zl⟩ : Frame (Nat × (K × V))) :: ctx).length = (q ++ (⟨false, zc, zp, zl⟩ : Frame (Nat × (K × V))) :: ctx).length := by simp
  have he : (q ++ (⟨false, zc, yp, zl⟩ : Frame (Nat × (K × V))) :: ctx).isEmpty = (q ++ (⟨false, zc, zp, zl⟩ : Frame (Nat × (K × V))) :: ctx).isEmpty := by cases q <;> rfl
  have hR : ∃ R, (if yc then some (plug yr (q ++ ⟨false, zc, zp, zl⟩ :: ctx)) else
      RB.removeFix (2 * (q ++ ⟨false, zc, zp, zl⟩ :: ctx).length + 2) yr (q ++ ⟨false, zc, zp, zl⟩ :: ctx)
        (q ++ ⟨false, zc, zp, zl⟩ :: ctx).isEmpty) = some R ∧ R' = R.map (sub zp.1 yp) := by
    rw [hl, he, hc] at hr
    have my := map_sub (q := yp) yr zyr
    cases yc
    · simp only [Bool.false_eq_true, if_false] at hr ⊢
      have nat := RB.removeFix_map (sub zp.1 yp) (2 * (q ++ ⟨false, zc, zp, zl⟩ :: ctx).length + 2) yr (q ++ ⟨false, zc, zp, zl⟩ :: ctx)
        (q ++ (⟨false, zc, zp, zl⟩ : Frame (Nat × (K × V))) :: ctx).isEmpty
      rw [my] at nat
      rw [nat] at hr
      cases hh : RB.removeFix (2 * (q ++ ⟨false, zc, zp, zl⟩ :: ctx).length + 2) yr (q ++ ⟨false, zc, zp, zl⟩ :: ctx)
        (q ++ (⟨false, zc, zp, zl⟩ : Frame (Nat × (K × V))) :: ctx).isEmpty with
      | none => rw [hh] at hr; simp at hr
      | some R =>
        rw [hh] at hr
        simp only [Option.map_some, Option.some.injEq] at hr
        exact ⟨R, rfl, hr.symm⟩
    · simp only [if_true, Option.some.injEq] at hr ⊢
      have nat := RB.plug_map (sub zp.1 yp) (q ++ ⟨false, zc, zp, zl⟩ :: ctx) yr
      rw [my] at nat
      exact ⟨_, rfl, by rw [← hr, nat]⟩
  obtain ⟨R, hR1, rfl⟩ := hR
  have len : (q ++ (⟨false, zc, zp, zl⟩ : Frame (Nat × (K × V))) :: ctx).length + 1 ≤ s.size := by
    have l1 := z.perm.length_eq
    have l2 := length_ctx (q ++ ⟨false, zc, zp, zl⟩ :: ctx)
    simp only [addrs, List.length_cons, List.length_append] at l1 l2 ⊢
    rw [H.size]; omega
  obtain ⟨h2, s2, z2⟩ := fix_sim (fuel := 2 * s.size + 3) z1 np1 (by rw [al1]; exact n.alive) (by rw [(ag1 _ yS).red]; exact n.red) hR1
    (by omega)
  have zR : zp.1 ∈ addrs R := by
    have := z2.perm.symm.subset zS1
    simp only [addrsC, List.append_nil, List.mem_cons] at this
    rcases this with h | h | h
    · exact absurd h.symm rz
    · exact absurd h.symm nz
    · exact h
  obtain ⟨c3, l3, p3, r3, ctx3, e3, e3'⟩ := exists_focus zp.1 R [] zR
  have z2' := Z.fromTop ctx3 (t := .node c3 l3 p3 r3) (by rw [e3]; exact z2)
  have hpy : h2.pay yp.1 = some yp.2 := by rw [z2.keep.2, pay1]; exact n.pay
  obtain ⟨h4, S4, s4, z4, pS4, al4, pay4, ag4⟩ := z2'.takeOver yS (by rw [z2.keep.1, al1]; exact n.alive) hpy
  rw [e3'] at s4 pS4
  have hR' : R.map (sub zp.1 yp) = plug (.node c3 l3 (yp.1, yp.2) r3) ctx3 := by
    have nd3 := z2'.nd
    simp only [addrs, List.cons_append, List.append_assoc, List.nodup_cons, List.mem_cons, List.mem_append, not_or] at nd3
    obtain ⟨_, _, ⟨x1, x2, x3⟩, _⟩ := nd3
    have nat := RB.plug_map (sub zp.1 yp) ctx3 (.node c3 l3 p3 r3)
    have hR0 : R = plug (.node c3 l3 p3 r3) ctx3 := e3.symm
    rw [hR0, ← nat, map_subC ctx3 (by rw [← e3']; exact x3)]
    simp only [RB.T.map, map_sub (z := zp.1) (q := yp) l3 (by rw [← e3']; exact x1), map_sub (z := zp.1) (q := yp) r3 (by rw [← e3']; exact x2), sub, e3', if_true]
  have z4t := z4.goTop
  rw [← hR'] at z4t
  have zS4 : zp.1 ∉ S4 := by
    have := pS4.nodup_iff.mpr (List.nodup_cons.mpr ⟨yS, z2'.nodup⟩)
    exact (List.nodup_cons.mp this).1
  have alz : s.h.alive zp.1 = true := z.mem_alive _ (pS.symm.subset (List.mem_cons_of_mem _ zS1))
  obtain ⟨h5, s5, z5, al5, pay5, ag5⟩ := z4t.freed zp.1 zS4 (by rw [al4, z2.keep.1, al1]; exact alz)
  have zpay : s.h.pay zp.1 = some zp.2 := by
    have hrc : ∀ (q' : List (Frame (Nat × (K × V)))) (c : Nat), RepC s.root s.nil s.h c (q' ++ ⟨false, zc, zp, zl⟩ :: ctx) →
        s.h.pay zp.1 = some zp.2 := by
      intro q'
      induction q' with
      | nil => intro c hc; exact hc.1.pay
      | cons f fs ih => intro c hc; exact ih _ hc.2.2
    exact hrc q _ z.repC
  have hpay : h4.pay zp.1 = some zp.2 := by rw [pay4, z2.keep.2, pay1]; exact zpay
  rw [hpay] at s5
  have pm : (zp.1 :: addrs (R.map (sub zp.1 yp))).Perm (addrs t) := by
    have p5 := z5.perm
    simp only [addrsC, List.append_nil] at p5
    exact perm_drop (((List.Perm.cons zp.1 p5).trans pS4).trans pS.symm)
  have hs0 : s.size ≠ 0 := by omega
  refine ⟨{ s with h := h5, size := s.size - 1 }, ?_, ⟨Z.toHolds (s := { s with h := h5, size := s.size - 1 }) z5 ?_, rfl, rfl, ?_, ?_, pm, ?_⟩⟩
  · simp [removeNode, s1, s2, zy, s4, s5, hs0]
  · have := pm.length_eq
    simp only [List.length_cons] at this
    show s.size - 1 = _
    rw [H.size]; omega
  · show h5.alive = _
    rw [al5, al4, z2.keep.1, al1]
  · show h5.pay = _
    rw [pay5, pay4, z2.keep.2, pay1]
  · intro a ha
    have ha1 : a ∉ S1 := fun hm => ha (pS.symm.subset (List.mem_cons_of_mem _ hm))
    have ha2 : a ≠ yp.1 := by rintro rfl; exact ha (pS.symm.subset (by simp))
    have ha3 : a ≠ zp.1 := by rintro rfl; exact ha1 zS1
    exact (((ag1 a ha1).trans (z2.out a ha1)).trans (ag4 a (by simp [ha1, ha2]))).trans (ag5 a ha3)

theorem getLoop_sim {root nil np : Nat} {h0 h : Heap (K × V)} {S : List Nat} (cmp : K → K → Int) (key : K) (t : T (Nat × (K × V))) :
    ∀ (ctx : List (Frame (Nat × (K × V)))) (n : Nat), Z root nil np h0 S h t ctx → (addrs t).length < n →
    (∃ c l p r ctx', plug (.node c l p r) ctx' = plug t ctx ∧
      RB.getNode cmp key (er t) (erC ctx) = some (er (.node c l p r), erC ctx') ∧
      getLoop cmp nil h key n (addr nil t) = some p.1) ∨
    (RB.getNode cmp key (er t) (erC ctx) = none ∧ getLoop cmp nil h key n (addr nil t) = some nil) := by
  induction t with
  | nil =>
    intro ctx n z hn
    obtain ⟨m, rfl⟩ : ∃ m, n = m + 1 := ⟨n - 1, by omega⟩
    exact Or.inr ⟨rfl, by simp [getLoop, addr]⟩
  | node c l p r ihl ihr =>
    intro ctx n z hn
    obtain ⟨m, rfl⟩ : ∃ m, n = m + 1 := ⟨n - 1, by simp only [addrs, List.length_cons] at hn; omega⟩
    simp only [addrs, List.length_cons, List.length_append] at hn
    have e1 := z.readPay
    have e2 := z.readL
    have e3 := z.readR
    have hne := z.ne_nil.1
    by_cases h1 : cmp key p.2.1 = 0
    · left
      exact ⟨c, l, p, r, ctx, rfl, by simp [RB.getNode, RB.T.map, h1], by simp [getLoop, addr, hne, e1, h1]⟩
    · by_cases h2 : cmp key p.2.1 < 0
      · have zl : Z root nil np h0 S h l (⟨true, c, p, r⟩ :: ctx) := Z.goDown (f := ⟨true, c, p, r⟩) z
        have ex : getLoop cmp nil h key (m + 1) (addr nil (.node c l p r)) = getLoop cmp nil h key m (addr nil l) := by
          simp [getLoop, addr, hne, e1, h1, h2, e2]
        have ez : RB.getNode cmp key (er (.node c l p r)) (erC ctx) = RB.getNode cmp key (er l) (erC (⟨true, c, p, r⟩ :: ctx)) := by
          simp [RB.getNode, RB.T.map, h1, h2, RB.Frame.map]
        rw [ex, ez]
        exact ihl _ m zl (by omega)
      · have zr : Z root nil np h0 S h r (⟨false, c, p, l⟩ :: ctx) := Z.goDown (f := ⟨false, c, p, l⟩) z
        have ex : getLoop cmp nil h key (m + 1) (addr nil (.node c l p r)) = getLoop cmp nil h key m (addr nil r) := by
          simp [getLoop, addr, hne, e1, h1, h2, e3]
        have ez : RB.getNode cmp key (er (.node c l p r)) (erC ctx) = RB.getNode cmp key (er r) (erC (⟨false, c, p, l⟩ :: ctx)) := by
          simp [RB.getNode, RB.T.map, h1, h2, RB.Frame.map]
        rw [ex, ez]
        exact ihr _ m zr (by omega)

/-- `RBTreeGet`. -/
theorem get_sim {cmp : K → K → Int} {s : St K V} {t : T (Nat × (K × V))} (H : Holds s t) (key : K) :
    get cmp s key = some (RB.get cmp ⟨er t, s.size⟩ key) := by
  rcases getLoop_sim cmp key t [] (s.size + 1) H.z (by rw [H.size]; omega) with ⟨c, l, p, r, ctx', hp, e1, e2⟩ | ⟨e1, e2⟩
  · have z := Z.fromTop ctx' (t := .node c l p r) (by rw [hp]; exact H.z)
    have hpay := z.readPay
    simp only [erC, List.map_nil] at e1
    simp [get, getNode, H.top, e2, z.ne_nil.1, hpay, RB.get, e1, RB.T.map]
  · simp only [erC, List.map_nil] at e1
    simp [get, getNode, H.top, e2, RB.get, e1]

theorem fix_erase (c : Bool) (x : T (Nat × (K × V))) (ctx : List (Frame (Nat × (K × V)))) :
    (if c then some (plug (er x) (erC ctx)) else RB.removeFix (2 * (erC ctx).length + 2) (er x) (erC ctx) (erC ctx).isEmpty) =
    (if c then some (plug x ctx) else RB.removeFix (2 * ctx.length + 2) x ctx ctx.isEmpty).map er := by
  have e1 : (erC ctx).length = ctx.length := by simp
  have e2 : (erC ctx).isEmpty = ctx.isEmpty := by cases ctx <;> rfl
  cases c
  · simp only [Bool.false_eq_true, if_false, e1, e2]
    exact RB.removeFix_map Prod.snd _ x ctx _
  · simp only [if_true, Option.map_some]
    rw [RB.plug_map]

theorem remove_one_eq {cmp : K → K → Int} {t : RB.Tree K V} {key : K} {c : Bool} {l r x : T (K × V)} {p : K × V}
    {ctx : List (Frame (K × V))} (e1 : RB.getNode cmp key t.root [] = some (.node c l p r, ctx))
    (hx : l = .nil ∧ x = r ∨ r = .nil ∧ x = l) :
    RB.remove cmp t key = (if c then some (plug x ctx) else RB.removeFix (2 * ctx.length + 2) x ctx ctx.isEmpty).bind
      fun root => if t.size = 0 then none else some ((⟨root, t.size - 1⟩ : RB.Tree K V), some p) := by
  rcases hx with ⟨rfl, rfl⟩ | ⟨rfl, rfl⟩
  · rcases x with _ | ⟨c3, l3, p3, r3⟩ <;> simp only [RB.remove, e1] <;> cases c <;> simp
  · rcases x with _ | ⟨c3, l3, p3, r3⟩ <;> simp only [RB.remove, e1] <;> cases c <;> simp

/-- `RBTreeRemove`. -/
theorem remove_sim {cmp : K → K → Int} {s : St K V} {t : T (Nat × (K × V))} {key : K} {t' : RB.Tree K V} {d : Option (K × V)}
    (H : Holds s t) (e : RB.remove cmp ⟨er t, s.size⟩ key = some (t', d)) :
    (d = none ∧ t' = ⟨er t, s.size⟩ ∧ remove cmp s key = some (s, false, [])) ∨
    (∃ v a s' t2, d = some v ∧ remove cmp s key = some (s', true, [some v]) ∧ t' = ⟨er t2, s'.size⟩ ∧ a ∈ addrs t ∧
      s.h.pay a = some v ∧ s'.size + 1 = s.size ∧ Removed s t a s' t2) := by
  rcases getLoop_sim cmp key t [] (s.size + 1) H.z (by rw [H.size]; omega) with ⟨c, l, p, r, ctx', hp, e1, e2⟩ | ⟨e1, e2⟩
  · right
    have z := Z.fromTop ctx' (t := .node c l p r) (by rw [hp]; exact H.z)
    have n := z.rep.1
    have hne := z.ne_nil.1
    have pt : p.1 ∈ addrs t := by
      have := z.perm.subset (show p.1 ∈ _ by simp [addrs])
      simp only [List.mem_cons] at this
      rcases this with h | h | h
      · exact absurd h z.ne_nil.2
      · exact absurd h hne
      · exact h
    have hg : getNode cmp s key = some p.1 := by simp [getNode, H.top, e2]
    have rl := z.readL
    have rr := z.readR
    have hs0 : s.size ≠ 0 := by
      rw [H.size]
      have := List.length_pos_of_mem pt
      omega
    have sz : ∀ s' t2, Removed s t p.1 s' t2 → s'.size + 1 = s.size := by
      intro s' t2 R
      have := R.perm.length_eq
      simp only [List.length_cons] at this
      rw [R.holds.size, H.size, this]
    simp only [erC, List.map_nil] at e1
    rcases l with _ | ⟨c2, l2, p2, r2⟩
    · -- no left child
      have fe := fix_erase c r ctx'
      have ez := remove_one_eq (t := ⟨er t, s.size⟩) (x := er r) e1 (Or.inl ⟨rfl, rfl⟩)
      rw [ez] at e
      simp only [] at fe e
      rw [fe] at e
      cases hR : (if c then some (plug r ctx') else RB.removeFix (2 * ctx'.length + 2) r ctx' ctx'.isEmpty) with
      | none => rw [hR] at e; simp at e
      | some R =>
        rw [hR] at e
        simp [hs0] at e
        obtain ⟨s', es, rm⟩ := removeNode_one H hp (Or.inl ⟨rfl, rfl⟩) hR
        refine ⟨p.2, p.1, s', R, e.2.symm, ?_, ?_, pt, n.pay, sz _ _ rm, rm⟩
        · simp only [addr] at rl
          have yx : removeYX s p.1 = some (p.1, addr s.nil r) := by simp [removeYX, rl, rr]
          simp [remove, hg, hne, yx, es]
        · have hsz := sz _ _ rm
          rw [← e.1]; congr 1; omega
    · have hl2 : p2.1 ≠ s.nil := (show Z _ _ _ _ _ _ (.node c2 l2 p2 r2) _ from Z.goDown (f := ⟨true, c, p, r⟩) z).ne_nil.1
      simp only [addr] at rl
      rcases r with _ | ⟨c3, l3, p3, r3⟩
      · -- no right child
        have fe := fix_erase c (.node c2 l2 p2 r2) ctx'
        have ez := remove_one_eq (t := ⟨er t, s.size⟩) (x := er (.node c2 l2 p2 r2)) e1 (Or.inr ⟨rfl, rfl⟩)
        rw [ez] at e
        simp only [] at fe e
        rw [fe] at e
        cases hR : (if c then some (plug (.node c2 l2 p2 r2) ctx') else RB.removeFix (2 * ctx'.length + 2) (.node c2 l2 p2 r2) ctx' ctx'.isEmpty) with
        | none => rw [hR] at e; simp at e
        | some R =>
          rw [hR] at e
          simp [hs0] at e
          obtain ⟨s', es, rm⟩ := removeNode_one H hp (Or.inr ⟨rfl, rfl⟩) hR
          refine ⟨p.2, p.1, s', R, e.2.symm, ?_, ?_, pt, n.pay, sz _ _ rm, rm⟩
          · simp only [addr] at rr es
            have yx : removeYX s p.1 = some (p.1, p2.1) := by simp [removeYX, rl, rr, hl2]
            simp [remove, hg, hne, yx, es]
          · have hsz := sz _ _ rm
            rw [← e.1]; congr 1; omega
      · -- two children
        have zr : Z _ _ _ _ _ _ (.node c3 l3 p3 r3) (⟨false, c, p, .node c2 l2 p2 r2⟩ :: ctx') := Z.goDown (f := ⟨false, c, p, .node c2 l2 p2 r2⟩) z
        have hr3 := zr.ne_nil.1
        have len := z.perm.length_eq
        simp only [addrs, List.length_cons, List.length_append] at len
        obtain ⟨yc, yp, yr, yctx, l1, l2', l3'⟩ := leftmost_sim _ _ (s.size + 1) (by simp) zr
          (by simp only [addrs, List.length_cons, List.length_append]; rw [H.size]; omega)
        have la := leftmost_append (.node c3 l3 p3 r3) [] (⟨false, c, p, .node c2 l2 p2 r2⟩ :: ctx')
        simp only [List.nil_append, l1, Prod.mk.injEq] at la
        have lb := leftmost_append (.node c3 l3 p3 r3) [] [⟨false, c, p, .node c2 l2 p2 r2⟩]
        obtain ⟨la1, la2⟩ := la
        generalize hq : (RB.leftmost (.node c3 l3 p3 r3) []).2 = q at la2 lb
        simp only [List.nil_append, ← la1] at lb
        have lm := leftmost_map Prod.snd (.node c3 l3 p3 r3) [(⟨false, c, p, .node c2 l2 p2 r2⟩ : Frame (Nat × (K × V)))]
        rw [lb] at lm
        simp only [RB.T.map, List.map_append, List.map_cons, List.map_nil, RB.Frame.map] at lm
        rw [la2] at l2'
        have fe := fix_erase yc yr (q ++ ⟨false, c, yp, .node c2 l2 p2 r2⟩ :: ctx')
        have hnext : RB.next (er (.node c (.node c2 l2 p2 r2) p (.node c3 l3 p3 r3)), []) =
            some (.node yc .nil yp.2 (er yr), erC q ++ [⟨false, c, p.2, er (.node c2 l2 p2 r2)⟩]) := by
          simp only [er, RB.T.map, RB.next, lm]
        have hplug : plug (.node yc .nil yp yr) (q ++ ⟨false, c, p, .node c2 l2 p2 r2⟩ :: ctx') = t := by
          exact l2'.trans hp
        have erc : erC (q ++ ⟨false, c, yp, .node c2 l2 p2 r2⟩ :: ctx') = erC q ++ ⟨false, c, yp.2, er (.node c2 l2 p2 r2)⟩ :: erC ctx' := by
          simp [RB.Frame.map]
        rw [erc] at fe
        -- what the zipper model computes
        have ez : RB.remove cmp ⟨er t, s.size⟩ key = ((if yc = true then some (plug (er yr) (erC q ++ ⟨false, c, yp.2, er (.node c2 l2 p2 r2)⟩ :: erC ctx')) else
            RB.removeFix (2 * (erC q ++ ⟨false, c, yp.2, er (.node c2 l2 p2 r2)⟩ :: erC ctx').length + 2) (er yr)
              (erC q ++ ⟨false, c, yp.2, er (.node c2 l2 p2 r2)⟩ :: erC ctx')
              (erC q ++ ⟨false, c, yp.2, er (.node c2 l2 p2 r2)⟩ :: erC ctx').isEmpty)).bind fun root =>
            if s.size = 0 then none else some ((⟨root, s.size - 1⟩ : RB.Tree K V), some p.2) := by
          simp only [er, RB.T.map] at hnext e1 ⊢
          simp only [RB.remove, e1, hnext]
          cases yc <;> simp [RB.T.map]
        rw [ez, fe] at e
        cases hR : (if yc then some (plug yr (q ++ ⟨false, c, yp, .node c2 l2 p2 r2⟩ :: ctx')) else
            RB.removeFix (2 * (q ++ ⟨false, c, yp, .node c2 l2 p2 r2⟩ :: ctx').length + 2) yr (q ++ ⟨false, c, yp, .node c2 l2 p2 r2⟩ :: ctx')
              (q ++ (⟨false, c, yp, .node c2 l2 p2 r2⟩ : Frame (Nat × (K × V))) :: ctx').isEmpty) with
        | none => rw [hR] at e; simp at e
        | some R =>
          rw [hR] at e
          simp [hs0] at e
          obtain ⟨s', es, rm⟩ := removeNode_two H hplug hR
          refine ⟨p.2, p.1, s', R, e.2.symm, ?_, ?_, pt, n.pay, sz _ _ rm, rm⟩
          · have zy := Z.fromTop _ (t := .node yc .nil yp yr) (by rw [hplug]; exact H.z)
            have yl := zy.readL
            have yrr := zy.readR
            simp only [addr] at yl rr l3'
            have nx : next s.root s.nil (s.size + 1) s.h p.1 = some yp.1 := by simp [next, rr, hr3, l3']
            have yx : removeYX s p.1 = some (yp.1, addr s.nil yr) := by simp [removeYX, rl, rr, hl2, hr3, nx, yl, yrr]
            simp [remove, hg, hne, yx, es]
          · have hsz := sz _ _ rm
            rw [← e.1]; congr 1; omega
  · left
    simp only [erC, List.map_nil] at e1
    simp [RB.remove, e1] at e
    refine ⟨e.2.symm, e.1.symm, ?_⟩
    simp [remove, getNode, H.top, e2]

end del

end RBPtr
